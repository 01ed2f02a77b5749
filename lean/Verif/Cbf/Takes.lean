import Verif.Cbf.Moves

/-!
# Honest filter headers are taken
-/

set_option autoImplicit false

namespace Verif.Cbf
variable (p : Params)

/-- The message answers the request for the filter headers from height `i` up to block `k`, given the filter headers `es` of the chain: it holds the filter header below
`i` and the filter hashes from `i` up to the height of `k`. -/
structure Honest (es : List Entry) (t : Tree) (i k : Nat) (msg : CFHeadersMsg) : Prop where
  type : msg.filterType = 0
  stop : msg.stop = k
  prev : below es i = some msg.prev
  hashes : ∃ j, t.byHeight j = some k ∧ i ≤ j ∧ msg.hashes = ((es.drop i).take (j + 1 - i)).map (·.1)

variable {p} {t : Tree} {e : Env}

theorem chainHeaders_length (p : Params) : ∀ (hs : List Nat) (prev : Nat), (chainHeaders p prev hs).length = hs.length
  | [], _ => rfl
  | h :: hs, prev => by simp [chainHeaders, chainHeaders_length p hs]

theorem chainHeaders_genuine {es : List Entry} (hc : FilterChain p es) : ∀ (n i prev : Nat), es[i]?.map (·.2) = some prev →
    chainHeaders p prev (((es.drop (i + 1)).take n).map (·.1)) = (es.drop (i + 1)).take n
  | 0, _, _, _ => by simp [chainHeaders]
  | n + 1, i, prev, h => by
    cases hd : es.drop (i + 1) with
    | nil => simp [chainHeaders]
    | cons a l =>
      have ha : es[i + 1]? = some a := by rw [← List.head?_drop, hd]; rfl
      have hl : l = es.drop (i + 1 + 1) := by rw [← List.tail_drop, hd]; rfl
      obtain ⟨b, hb, hb2⟩ := Option.map_eq_some_iff.1 h
      have hlink := hc.linked i b a hb ha
      rw [hb2] at hlink
      simp only [List.take_succ_cons, List.map_cons, chainHeaders]
      rw [← hlink, hl, chainHeaders_genuine hc n (i + 1) a.2 (by rw [ha]; rfl)]

theorem prefix_get {es : List Entry} {f : FilterHeaders} (h : f.all <+: es) : es[f.height]?.map (·.2) = some (tipHeader f) := by
  rw [← tipHeader_eq f]
  obtain ⟨r, rfl⟩ := h
  rw [List.getLast?_eq_getElem?, List.getElem?_append_left (by simp [FilterHeaders.all, FilterHeaders.height])]
  simp [FilterHeaders.all, FilterHeaders.height]

/-- Whether filter headers are taken out of a message. -/
theorem cfheaders_cases (m : Mgr) (msg : CFHeadersMsg) :
    (m.receivedCFHeaders p e t msg).1.filters = m.filters ∨
    ∃ j, t.heightOf msg.stop = some j ∧ m.filters.height < j ∧ msg.prev = tipHeader m.filters ∧ j - m.filters.height = msg.hashes.length ∧
      (m.receivedCFHeaders p e t msg).1.filters = (importHeaders m.filters (chainHeaders p msg.prev msg.hashes) e.fail).1 ∧
      (e.fail = false → (m.receivedCFHeaders p e t msg).1.filters.store.length - 1 = t.height → (m.receivedCFHeaders p e t msg).2 ≠ .panic →
        .event (.filterHeadersSynced t.height) ∈ (m.receivedCFHeaders p e t msg).1.out) := by
  generalize hq : m.receivedCFHeaders p e t msg = q
  unfold Mgr.receivedCFHeaders at hq
  split at hq
  · subst hq; exact .inl rfl
  · simp only at hq
    split at hq
    · subst hq; exact .inl rfl
    · split at hq
      · subst hq; exact .inl rfl
      · rename_i j hj
        split at hq
        · subst hq; exact .inl rfl
        · rename_i hlt
          split at hq
          · subst hq; exact .inl rfl
          · rename_i hprev
            split at hq
            · subst hq; exact .inl rfl
            · split at hq
              · subst hq; exact .inl rfl
              · split at hq
                · subst hq; exact .inl rfl
                · split at hq
                  · subst hq; exact .inl rfl
                  · rename_i hcount
                    refine .inr ⟨j, hj, Nat.lt_of_not_le hlt, by simpa using hprev, by simpa using hcount, ?_⟩
                    split at hq
                    · rename_i f height hi
                      have x := moved_headersImported (t := t) e { m with inflight := m.inflight.erase msg.stop, filters := f } m.filters.height height
                      rw [hi]
                      split at hq
                      · rename_i m2 heq
                        simp only [heq] at x
                        obtain ⟨_, x⟩ := x
                        have x := x.filters
                        simp only at x
                        have hh : e.fail = false → m2.filters.store.length - 1 = height := by
                          intro hf
                          rw [x]
                          unfold importHeaders at hi
                          simp only [hf, Bool.false_eq_true, if_false, Prod.mk.injEq, Res.ok.injEq] at hi
                          rw [← hi.1, ← hi.2]
                        split at hq
                        · split at hq
                          · rename_i heq'
                            subst hq
                            exact ⟨x, fun _ _ _ => by simp [Mgr.emit, heq']⟩
                          · rename_i hne
                            split at hq
                            · rename_i m3 hs
                              subst hq
                              obtain ⟨_, y⟩ := moved_sync e hs
                              refine ⟨by rw [y.filters, x], fun hf hl _ => ?_⟩
                              rw [y.filters, hh hf] at hl
                              exact absurd hl hne
                            · subst hq
                              refine ⟨x, fun hf hl _ => ?_⟩
                              rw [hh hf] at hl
                              exact absurd hl hne
                            · subst hq; exact ⟨x, fun _ _ h => absurd rfl h⟩
                        · subst hq; exact ⟨x, fun _ _ h => absurd rfl h⟩
                      · rename_i m2 r hne heq
                        simp only [heq] at x
                        obtain ⟨_, x⟩ := x
                        subst hq
                        exact ⟨x.filters, fun _ _ h => absurd rfl h⟩
                    · rename_i f r hne hi
                      rw [hi]
                      subst hq
                      refine ⟨rfl, fun hf => ?_⟩
                      unfold importHeaders at hi
                      simp only [hf, Bool.false_eq_true, if_false, Prod.mk.injEq] at hi
                      exact absurd hi.2.symm (hne _)

/-- The filter headers are the beginning of those of the chain, in memory and in the store. -/
def Genuine (es : List Entry) (m : Mgr) : Prop := m.filters.all <+: es ∧ m.filters.store = m.filters.all

/-- Taking an honest answer. -/
theorem honest_taken {es : List Entry} (hc : FilterChain p es) (hn : t.hashes.Nodup) (hlen : es.length = t.hashes.length) {m m' : Mgr} {a i k : Nat} {msg : CFHeadersMsg}
    (hh : Honest es t i k msg) (hg : Genuine es m) (hf : e.fail = false) (h : m.step p e t (.cfheaders a msg) = .ok m') :
    m'.filters = m.filters ∨ (Genuine es m' ∧ m.filters.height < m'.filters.height ∧
      (m'.filters.height = t.height → .event (.filterHeadersSynced t.height) ∈ m'.out)) := by
  simp only [Mgr.step] at h
  have key := cfheaders_cases (p := p) (e := e) (t := t) m msg
  have hh' : ∃ o, m'.out = (m.receivedCFHeaders p e t msg).1.out ++ o ∧ m'.filters = (m.receivedCFHeaders p e t msg).1.filters ∧
      (m.receivedCFHeaders p e t msg).2 ≠ .panic := by
    generalize m.receivedCFHeaders p e t msg = q at h
    obtain ⟨q1, q2⟩ := q
    split at h <;> (rename_i heq; cases heq) <;> cases h
    · exact ⟨[], by simp⟩
    · exact ⟨_, rfl, rfl, by simp⟩
    · exact ⟨_, rfl, rfl, by simp⟩
    · exact ⟨[], by simp⟩
  obtain ⟨o, h1, h2, h3⟩ := hh'
  rw [h2, h1]
  rcases key with key | ⟨j, k1, k2, k3, k4, k5, k6⟩
  · exact .inl key
  · right
    obtain ⟨j', b1, b2, b3⟩ := hh.hashes
    rw [heightOf_eq_some hn, hh.stop] at k1
    have hjj : j' = j := by
      have hb1 : t.hashes[j']? = some k := b1
      obtain ⟨x1, x2⟩ := List.getElem?_eq_some_iff.1 hb1
      obtain ⟨y1, y2⟩ := List.getElem?_eq_some_iff.1 k1
      exact (List.Nodup.getElem_inj_iff hn).1 (x2.trans y2.symm)
    subst hjj
    have hjl : j' < es.length := by rw [hlen]; exact (List.getElem?_eq_some_iff.1 k1).1
    have hl : msg.hashes.length = j' + 1 - i := by rw [b3]; simp; omega
    have hi : i = m.filters.height + 1 := by omega
    subst hi
    have hch : chainHeaders p msg.prev msg.hashes = (es.drop (m.filters.height + 1)).take (j' - m.filters.height) := by
      rw [b3, show j' + 1 - (m.filters.height + 1) = j' - m.filters.height by omega]
      exact chainHeaders_genuine hc _ _ _ hh.prev
    have hfil : (importHeaders m.filters (chainHeaders p msg.prev msg.hashes) e.fail).1 =
        { m.filters with tail := m.filters.tail ++ chainHeaders p msg.prev msg.hashes, store := m.filters.store ++ chainHeaders p msg.prev msg.hashes } := by
      unfold importHeaders
      rw [if_neg (by simp [hf])]
    rw [hfil] at k5
    have hgn : Genuine es m' := by
      refine ⟨?_, ?_⟩
      · rw [h2, k5, hch]
        have hpre := hg.1
        rw [List.prefix_iff_eq_take] at hpre
        have hlen' : m.filters.all.length = m.filters.height + 1 := by simp [FilterHeaders.all, FilterHeaders.height]
        rw [hlen'] at hpre
        have hall : ∀ x s, FilterHeaders.all ⟨m.filters.head, m.filters.tail ++ x, s⟩ = m.filters.all ++ x := fun _ _ => rfl
        rw [hall, hpre, ← List.take_add]
        exact List.take_prefix _ _
      · rw [h2, k5]
        simp only [FilterHeaders.all]
        rw [hg.2]; rfl
    refine ⟨hgn, ?_, fun ht => ?_⟩
    · rw [k5]
      simp only [FilterHeaders.height, List.length_append, chainHeaders_length]
      omega
    · refine List.mem_append_left _ (k6 hf ?_ h3)
      rw [← ht, ← h2, hgn.2]
      simp [FilterHeaders.all, FilterHeaders.height]

/-- An honest answer for the next filter headers that is waited for is taken. -/
theorem honest_next {es : List Entry} (hn : t.hashes.Nodup) (hlen : es.length = t.hashes.length) {m m' : Mgr} {a k j : Nat} {msg : CFHeadersMsg}
    (hj : t.byHeight j = some k) (hlt : m.filters.height < j) (hle : j ≤ m.filters.height + maxCFHeaders)
    (hh : Honest es t (m.filters.height + 1) k msg) (hg : Genuine es m) (hin : m.inflight.contains k = true)
    (h : m.step p e t (.cfheaders a msg) = .ok m') : m'.filters ≠ m.filters := by
  intro heq
  have hprev : msg.prev = tipHeader m.filters := by
    have := hh.prev
    simp only [below] at this
    rw [prefix_get hg.1] at this
    exact (Option.some.inj this).symm
  obtain ⟨j', b1, b2, b3⟩ := hh.hashes
  have hjj : j' = j := by
    have hb1 : t.hashes[j']? = some k := b1
    have hb2 : t.hashes[j]? = some k := hj
    obtain ⟨x1, x2⟩ := List.getElem?_eq_some_iff.1 hb1
    obtain ⟨y1, y2⟩ := List.getElem?_eq_some_iff.1 hb2
    exact (List.Nodup.getElem_inj_iff hn).1 (x2.trans y2.symm)
  subst hjj
  have hjl : j' < es.length := by rw [hlen]; exact (List.getElem?_eq_some_iff.1 b1).1
  have hl : msg.hashes.length = j' - m.filters.height := by rw [b3]; simp; omega
  have hst : t.heightOf msg.stop = some j' := by rw [hh.stop, heightOf_eq_some hn]; exact b1
  simp only [Mgr.step] at h
  have hf : m'.filters = (m.receivedCFHeaders p e t msg).1.filters := by
    generalize m.receivedCFHeaders p e t msg = q at h
    obtain ⟨q1, q2⟩ := q
    split at h <;> (rename_i heq; cases heq) <;> cases h <;> rfl
  have himp : ∀ (f : FilterHeaders) r, importHeaders m.filters (chainHeaders p msg.prev msg.hashes) e.fail = (f, r) → f ≠ m.filters := by
    intro f r hr heq
    have : f.tail = m.filters.tail ++ chainHeaders p msg.prev msg.hashes := by
      unfold importHeaders at hr
      split at hr <;> cases hr <;> rfl
    rw [heq, List.self_eq_append_right] at this
    have := congrArg List.length this
    rw [chainHeaders_length, hl] at this
    simp at this
    omega
  rw [hf] at heq
  revert heq
  unfold Mgr.receivedCFHeaders
  rw [if_neg (by rw [hh.stop, hin]; simp)]
  simp only [hst]
  rw [if_neg (by rw [hh.type]; simp), if_neg (by omega), if_neg (by rw [hprev]; simp), if_neg (by omega), if_neg (by omega), if_neg (by omega), if_neg (by omega)]
  split
  · rename_i f height hi
    have x := moved_headersImported (t := t) e { m with inflight := m.inflight.erase msg.stop, filters := f } m.filters.height height
    split
    · rename_i m2 heq
      simp only [heq] at x
      obtain ⟨_, x⟩ := x
      have x := x.filters
      simp only at x
      split
      · split
        · intro h; exact himp _ _ hi (by rw [← x]; exact h)
        · split
          · rename_i m3 hs
            obtain ⟨_, y⟩ := moved_sync e hs
            intro h; exact himp _ _ hi (by rw [← x, ← y.filters]; exact h)
          · intro h; exact himp _ _ hi (by rw [← x]; exact h)
          · intro h; exact himp _ _ hi (by rw [← x]; exact h)
      · intro h; exact himp _ _ hi (by rw [← x]; exact h)
    · rename_i m2 r hne heq
      simp only [heq] at x
      obtain ⟨_, x⟩ := x
      intro h; exact himp _ _ hi (by rw [← show m2.filters = f from x.filters]; exact h)
  · rename_i f r hne hi
    intro h; exact himp _ _ hi h

end Verif.Cbf
