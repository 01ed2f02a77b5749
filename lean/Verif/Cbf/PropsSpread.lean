import Mathlib.Data.Int.CardIntervalMod
import Verif.Cbf.PropsReq
import Verif.Cbf.PropsLive
import Verif.Cbf.PropsMatch

/-!
# C132: filter requests are spread evenly over the peers
-/

set_option autoImplicit false

namespace Verif.Cbf

/-! ## Specification -/

/-- The peers that filters are asked for from, in order, one for each request. -/
def askedPeers (l : List Out) : List Nat := l.filterMap fun o => match o with | .getCFilters a _ _ => some a | _ => none

/-! ## Lemmas -/

theorem askedPeers_append (l l' : List Out) : askedPeers (l ++ l') = askedPeers l ++ askedPeers l' := List.filterMap_append

/-- In turn, beginning with the peer number `i`. -/
def turns (peers : List Nat) (i n : Nat) : List Nat := (List.range' i n).filterMap fun k => peers[k % peers.length]?

theorem askFilters_turns (t : Tree) (peers : List Nat) : ∀ (rs : List (Nat × Nat)) (i : Nat) (m : Mgr),
    ∃ l n, (Mgr.askFilters t peers i m rs).1.out = m.out ++ l ∧ askedPeers l = turns peers i n ∧ ((Mgr.askFilters t peers i m rs).2 = .ok () → peers ≠ [] → n = rs.length)
  | [], i, m => ⟨[], 0, by simp [Mgr.askFilters], rfl, fun _ _ => rfl⟩
  | (a, b) :: rs, i, m => by
    unfold Mgr.askFilters
    cases hp : peers[i % peers.length]? with
    | none =>
      refine ⟨[], 0, by simp, rfl, fun _ hne => ?_⟩
      have := List.getElem?_eq_none_iff.1 hp
      have := Nat.mod_lt i (List.length_pos_iff.2 hne)
      omega
    | some peer =>
      cases hb : t.byHeight b with
      | none => exact ⟨[], 0, by simp, rfl, fun h => by cases h⟩
      | some stop =>
        obtain ⟨l, n, h1, h2, h3⟩ := askFilters_turns t peers rs (i + 1) (m.emit [.getCFilters peer (a % 2 ^ 32) stop, .timer requestTimeout])
        refine ⟨[.getCFilters peer (a % 2 ^ 32) stop, .timer requestTimeout] ++ l, n + 1, ?_, ?_, fun h hne => ?_⟩
        · simp only [h1]
          simp only [Mgr.emit, List.append_assoc]
        · rw [askedPeers_append, h2]
          simp [askedPeers, turns, List.range'_succ, hp]
        · simp only [List.length_cons, h3 h hne]

theorem count_turns {peers : List Nat} (hn : peers.Nodup) (a : Nat) (ha : a ∈ peers) (n : Nat) :
    (turns peers 0 n).count a = n / peers.length ∨ (turns peers 0 n).count a = n / peers.length + 1 := by
  obtain ⟨j, hj, rfl⟩ := List.getElem_of_mem ha
  have hpos : 0 < peers.length := Nat.lt_of_le_of_lt (Nat.zero_le _) hj
  have key : ∀ n, (turns peers 0 n).count peers[j] = n.count (fun k => k ≡ j [MOD peers.length]) := by
    intro n
    induction n with
    | zero => simp [turns]
    | succ n ih =>
      have hk : n % peers.length < peers.length := Nat.mod_lt _ hpos
      have : turns peers 0 (n + 1) = turns peers 0 n ++ [peers[n % peers.length]] := by
        unfold turns
        rw [List.range'_concat, List.filterMap_append]
        simp [List.getElem?_eq_getElem hk]
      rw [this, List.count_append, ih, Nat.count_succ]
      congr 1
      have h1 : (n ≡ j [MOD peers.length]) ↔ peers[n % peers.length] = peers[j] := by
        rw [hn.getElem_inj_iff, Nat.ModEq, Nat.mod_eq_of_lt hj]
      rw [List.count_singleton]
      simp only [h1, beq_iff_eq]
  rw [key, Nat.count_modEq_card n hpos]
  split
  · exact .inr rfl
  · exact .inl rfl

theorem even_turns {peers : List Nat} (hn : peers.Nodup) {a b : Nat} (ha : a ∈ peers) (hb : b ∈ peers) (n : Nat) :
    (turns peers 0 n).count a ≤ (turns peers 0 n).count b + 1 := by
  rcases count_turns hn a ha n with h | h <;> rcases count_turns hn b hb n with h' | h' <;> omega

theorem getCFilters_even {e : Env} (hf : e.Fair) (t : Tree) (m : Mgr) (hn : m.peers.keys.Nodup) (start stop : Nat) {a b : Nat} (ha : a ∈ m.peers.keys) (hb : b ∈ m.peers.keys) :
    ∃ l, (m.getCFilters e t start stop).1.out = m.out ++ l ∧ (askedPeers l).count a ≤ (askedPeers l).count b + 1 := by
  unfold Mgr.getCFilters
  split
  · exact ⟨[], by simp, by simp [askedPeers]⟩
  · split
    · exact ⟨[], by simp, by simp [askedPeers]⟩
    · split
      · have hp := hf.shuffle_perm m.peers.keys
        obtain ⟨l, n, h1, h2, -⟩ := askFilters_turns t (e.shuffle m.peers.keys) (m.rescan.requests t start stop).1 0 { m with rescan := (m.rescan.requests t start stop).2 }
        refine ⟨l, h1, ?_⟩
        rw [h2]
        exact even_turns (hp.nodup_iff.2 hn) (hp.mem_iff.2 ha) (hp.mem_iff.2 hb) n
      · exact ⟨[], by simp, by simp [askedPeers]⟩

section
variable (p : Params)

theorem rollback_peers {e : Env} {m m' : Mgr} {k : Nat} (h : m.rollback e k = .ok m') : m'.peers = m.peers := by
  unfold Mgr.rollback at h
  split at h
  · cases h; rfl
  · rw [Res.bind_eq_ok] at h
    obtain ⟨r, -, h⟩ := h
    simp only at h
    split at h
    · split at h
      · split at h <;> (cases h; rfl)
      · cases h; rfl
    · cases h; rfl

theorem headersImported_peers (e : Env) (t : Tree) (m : Mgr) (a b : Nat) : (m.headersImported e t a b).1.peers = m.peers := by
  unfold Mgr.headersImported
  split
  · rfl
  · simp only
    split
    · rfl
    · exact getCFilters_peers e t m _ _

theorem receivedCFHeaders_peers (e : Env) (t : Tree) (m : Mgr) (msg : CFHeadersMsg) : (m.receivedCFHeaders p e t msg).1.peers = m.peers := by
  unfold Mgr.receivedCFHeaders
  split
  · rfl
  · simp only
    split
    · rfl
    · split
      · rfl
      · split
        · rfl
        · split
          · rfl
          · split
            · rfl
            · split
              · rfl
              · split
                · rfl
                · split
                  · rfl
                  · split
                    · rename_i f height _
                      have hi := headersImported_peers e t { m with inflight := m.inflight.erase msg.stop, filters := f } m.filters.height height
                      split
                      · rename_i m1 hm
                        rw [hm] at hi
                        split
                        · split
                          · exact hi
                          · split
                            · rename_i m2 hs
                              exact (sync_peers p e t _ _ hs).trans hi
                            · exact hi
                            · exact hi
                        · exact hi
                      · rename_i m1 _ _ hm
                        rw [hm] at hi
                        exact hi
                    · rfl

theorem fetchRescan_peers (e : Env) (t : Tree) (m : Mgr) (a b : Nat) : (m.fetchRescan p e t a b).1.peers = m.peers := by
  unfold Mgr.fetchRescan
  split
  · rfl
  · split
    · rfl
    · have hg := getCFilters_peers e t m a b
      split <;> (rename_i h; rw [h] at hg; exact hg)

theorem startRescan_peers (e : Env) (t : Tree) (m : Mgr) (a b : Bound) (w : List Nat) : (m.startRescan p e t a b w).1.peers = m.peers := by
  unfold Mgr.startRescan
  split
  · exact fetchRescan_peers p e t _ _ _
  · rfl

theorem requestBlocks_peers : ∀ (ms : List (Nat × Nat)) (m : Mgr), (m.requestBlocks ms).peers = m.peers
  | [], m => rfl
  | x :: ms, m => by
    unfold Mgr.requestBlocks
    split
    · exact requestBlocks_peers ms m
    · exact requestBlocks_peers ms _

theorem expire_nodup (e : Env) : ∀ (ks : List Nat) (m : Mgr), m.peers.keys.Nodup → (Mgr.expire e ks m).peers.keys.Nodup
  | [], m, h => h
  | k :: ks, m, h => by
    unfold Mgr.expire
    split
    · exact expire_nodup e ks m h
    · split
      · split
        · exact expire_nodup e ks m h
        · refine expire_nodup e ks _ ?_
          simp only [Mgr.emit]
          split
          · exact AMap.nodup_erase h _
          · exact h
      · exact expire_nodup e ks m h

theorem step_nodup {e : Env} {t : Tree} {m m' : Mgr} {op : Op} (h : m.step p e t op = .ok m') (hn : m.peers.keys.Nodup) : m'.peers.keys.Nodup := by
  have same : ∀ {x : Mgr}, x.peers = m.peers → x.peers.keys.Nodup := fun h => h ▸ hn
  cases op with
  | init => exact same (idle_peers p e t m m' h)
  | peerNegotiated a o f pers =>
    simp only [Mgr.step] at h
    split at h
    · cases h; exact hn
    · split at h
      · cases h; exact hn
      · rw [sync_peers p e t _ _ h]
        exact AMap.nodup_insert hn _ _
  | peerDisconnected a => cases h; exact AMap.nodup_erase hn _
  | blockProcessed b k =>
    simp only [Mgr.step] at h
    split at h <;> (cases h; exact hn)
  | blockDisconnected k => cases h; exact hn
  | headersImported rs =>
    simp only [Mgr.step] at h
    split at h
    · rw [Res.bind_eq_ok] at h
      obtain ⟨f, -, h⟩ := h
      rw [Res.bind_eq_ok] at h
      obtain ⟨m1, h1, h2⟩ := h
      exact same ((sync_peers p e t _ _ h2).trans (rollback_peers h1))
    · exact same (sync_peers p e t _ _ h)
  | txConfirmed x => cases h; exact hn
  | txReverted x s => cases h; exact hn
  | cfheaders a msg =>
    have hc := receivedCFHeaders_peers p e t m msg
    simp only [Mgr.step] at h
    split at h <;> first | (rename_i hx; rw [hx] at hc; cases h; exact same hc) | cases h
  | getcfheaders a ft s st =>
    have hc : (m.receivedGetCFHeaders p t a ft s st).1.peers = m.peers := by
      unfold Mgr.receivedGetCFHeaders
      split
      · rfl
      · split
        · rfl
        · unfold Mgr.serveCFHeaders
          split
          · rfl
          · split <;> rfl
          · rfl
          · rfl
    simp only [Mgr.step] at h
    split at h <;> first | (rename_i hx; rw [hx] at hc; cases h; exact same hc) | cases h
  | cfilter a ft b f =>
    have hc := receivedCFilter_cases p e t m a ft b f
    simp only [Mgr.step] at h
    generalize m.receivedCFilter p e t a ft b f = q at hc h
    have after : ∀ (x : Mgr) ms, x.peers = m.peers → (x.afterFilter ms).peers = m.peers := by
      intro x ms hx
      unfold Mgr.afterFilter
      simp only
      split
      · exact (requestBlocks_peers ms x).trans hx
      · exact (requestBlocks_peers ms x).trans hx
    cases hc with
    | ignored => cases h; exact hn
    | invalid => cases h; exact hn
    | unsolicited => cases h; exact same (after _ _ rfl)
    | scanned => cases h; exact same (after _ _ rfl)
    | panicked => cases h
  | timer =>
    simp only [Mgr.step, Mgr.timerExpired] at h
    rw [Res.bind_eq_ok] at h
    obtain ⟨m1, h1, h⟩ := h
    have k := expire_nodup e (e.order m1.inflight.keys) m1 (same (idle_peers p e t m m1 h1))
    generalize Mgr.expire e (e.order m1.inflight.keys) m1 = m2 at h k
    split at h
    · split at h
      · have hg := getCFilters_peers e t { m2 with rescan := m2.rescan.reset } m2.rescan.reset.current m2.filters.height
        split at h
        · cases h
        · rename_i hx
          cases h
          rw [hx] at hg
          rw [hg]
          exact k
      · cases h; exact k
    · cases h; exact k
  | watch s => cases h; exact hn
  | watchTransaction x s => cases h; exact hn
  | rescan a b w =>
    have hc := startRescan_peers p e t m a b w
    simp only [Mgr.step] at h
    split at h
    · rename_i hx
      rw [hx] at hc
      cases h
      exact same hc
    · cases h
  | getCFilters a b =>
    have hc := getCFilters_peers e t m a b
    simp only [Mgr.step] at h
    split at h
    · cases h
    · rename_i hx
      rw [hx] at hc
      cases h
      exact same hc

theorem FairLog.nodup {l : List Op} {m : Mgr} (h : FairLog p l m) : m.peers.keys.Nodup := by
  induction h with
  | init f c => simp [Mgr.new, AMap.keys]
  | @step l m m' e t op _ _ hs ih => exact step_nodup p hs ih

/-! ## Theorems -/

/-- **C132.** A request for filters, in any state the client can be in: the messages it leads to are spread evenly over the peers that serve filters; none gets more than one more than any other. -/
theorem C132_get {l : List Op} {m m' : Mgr} (hl : FairLog p l m) {e : Env} (hf : e.Fair) {t : Tree} {start stop : Nat} (h : m.step p e t (.getCFilters start stop) = .ok m')
    {a b : Nat} (ha : a ∈ m.peers.keys) (hb : b ∈ m.peers.keys) : ∃ o, m'.out = m.out ++ o ∧ (askedPeers o).count a ≤ (askedPeers o).count b + 1 := by
  have hc := getCFilters_even hf t m (FairLog.nodup p hl) start stop ha hb
  simp only [Mgr.step] at h
  split at h
  · cases h
  · rename_i hx
    rw [hx] at hc
    cases h
    exact hc

/-- **C132.** Likewise for a rescan. -/
theorem C132_rescan {l : List Op} {m m' : Mgr} (hl : FairLog p l m) {e : Env} (hf : e.Fair) {t : Tree} {start stop : Bound} {w : List Nat} (h : m.step p e t (.rescan start stop w) = .ok m')
    {a b : Nat} (ha : a ∈ m.peers.keys) (hb : b ∈ m.peers.keys) : ∃ o, m'.out = m.out ++ o ∧ (askedPeers o).count a ≤ (askedPeers o).count b + 1 := by
  have noise : ∀ (es : List Ev), askedPeers (es.map .event) = [] := fun es => by
    induction es with
    | nil => rfl
    | cons x es ih => exact ih
  have blocks : ∀ (ms : List (Nat × Nat)), askedPeers (ms.map fun x => .getBlock x.2) = [] := fun ms => by
    induction ms with
    | nil => rfl
    | cons x ms ih => exact ih
  have hc : ∃ o, (m.startRescan p e t start stop w).1.out = m.out ++ o ∧ (askedPeers o).count a ≤ (askedPeers o).count b + 1 := by
    unfold Mgr.startRescan
    split
    · rename_i x _
      simp only
      generalize hm1 : ({ m with rescan := m.rescan.restart (start.first t) x w } : Mgr).emit [.event (.rescanStarted (start.first t) x)] = m1
      have ho : m1.out = m.out ++ [.event (.rescanStarted (start.first t) x)] := by rw [← hm1]; rfl
      have hp : m1.peers = m.peers := by rw [← hm1]; rfl
      have here : ∃ o, m1.out = m.out ++ o ∧ (askedPeers o).count a ≤ (askedPeers o).count b + 1 := ⟨_, ho, by simp [askedPeers]⟩
      unfold Mgr.fetchRescan
      split
      · exact here
      · split
        · exact here
        · obtain ⟨o, h1, h2⟩ := getCFilters_even hf t m1 (hp ▸ FairLog.nodup p hl) (start.first t) (m1.lastWanted x) (hp ▸ ha) (hp ▸ hb)
          have out : ∀ (m2 : Mgr), m2.out = m1.out ++ o → ∃ o, (m2.processQueue p).1.out = m.out ++ o ∧ (askedPeers o).count a ≤ (askedPeers o).count b + 1 := by
            intro m2 hm2
            refine ⟨[.event (.rescanStarted (start.first t) x)] ++ o ++ (m2.rescan.process p).2.2.1.map .event, ?_, ?_⟩
            · have : (m2.processQueue p).1.out = m2.out ++ (m2.rescan.process p).2.2.1.map .event := rfl
              rw [this, hm2, ho, List.append_assoc, List.append_assoc, List.append_assoc]
            · rw [askedPeers_append, askedPeers_append, noise]
              simpa [askedPeers] using h2
          split
          · rename_i m2 hx; rw [hx] at h1; exact out m2 h1
          · rename_i m2 hx; rw [hx] at h1; exact out m2 h1
          · rename_i m2 _ _ _ hx
            rw [hx] at h1
            refine ⟨_, by rw [h1, ho, List.append_assoc], ?_⟩
            rw [askedPeers_append]
            simpa [askedPeers] using h2
    · exact ⟨[], by simp, by simp [askedPeers]⟩
  obtain ⟨o, h1, h2⟩ := hc
  simp only [Mgr.step] at h
  split at h
  · rename_i m1 ms hx
    rw [hx] at h1
    cases h
    refine ⟨o ++ ms.map (fun x => .getBlock x.2), ?_, ?_⟩
    · show m1.out ++ _ = _
      rw [h1, List.append_assoc]
    · rw [askedPeers_append, blocks, List.append_nil]
      exact h2
  · cases h

end

/-! ## A concrete case -/

namespace Scenario

/-- Two peers; the filter at height 2 is asked for, then those at heights 1 to 3. -/
def twoPeers : List (Env × Tree × Op) := setup ++ [(at_ 100002, t, .peerNegotiated 2 true true false), (at_ 100003, t, .getCFilters 2 2)]

theorem run_fair : ∀ (ops : List (Env × Tree × Op)) (l : List Op) (m m' : Mgr), FairLog p l m → (∀ x ∈ ops, x.1.Fair) → m.run p ops = .ok m' → ∃ l', FairLog p l' m'
  | [], l, m, m', h, _, hr => by cases hr; exact ⟨l, h⟩
  | (e, t, op) :: ops, l, m, m', h, hf, hr => by
    unfold Mgr.run at hr
    rw [Res.bind_eq_ok] at hr
    obtain ⟨m1, h1, h2⟩ := hr
    exact run_fair ops _ m1 m' (.step e t op h (hf _ List.mem_cons_self) h1) (fun x hx => hf x (List.mem_cons_of_mem _ hx)) h2

/-- The two requests needed for the second command go to different peers. -/
example : ∃ l m m', FairLog p l m ∧ m.step p (at_ 100004) t (.getCFilters 1 3) = .ok m' ∧ askedPeers m.out = [2] ∧ askedPeers m'.out = [2, 2, 1] ∧
    ∃ o, m'.out = m.out ++ o ∧ (askedPeers o).count 1 ≤ (askedPeers o).count 2 + 1 := by
  have hd : look (fun m => (askedPeers m.out, m.peers.keys, look (fun m => askedPeers m.out) (m.step p (at_ 100004) t (.getCFilters 1 3)))) (m0.run p twoPeers) =
    some ([2], [2, 1], some [2, 2, 1]) := by decide
  cases hr : m0.run p twoPeers with
  | ok m =>
    obtain ⟨l, hl⟩ := run_fair twoPeers [] m0 m (.init _ _) (by
      intro x hx
      simp only [twoPeers, setup, List.cons_append, List.nil_append, List.mem_cons, List.not_mem_nil, or_false] at hx
      rcases hx with rfl | rfl | rfl | rfl <;> exact fair_at _) hr
    rw [hr] at hd
    simp only [look, Option.some.injEq, Prod.mk.injEq] at hd
    cases hs : m.step p (at_ 100004) t (.getCFilters 1 3) with
    | ok m' =>
      rw [hs] at hd
      simp only [Option.some.injEq] at hd
      exact ⟨l, m, m', hl, hs, hd.1, hd.2.2, C132_get p hl (fair_at _) hs (by rw [hd.2.1]; decide) (by rw [hd.2.1]; decide)⟩
    | err _ => rw [hs] at hd; simp at hd
    | panic => rw [hs] at hd; simp at hd
  | err _ => rw [hr] at hd; simp [look] at hd
  | panic => rw [hr] at hd; simp [look] at hd

end Scenario

end Verif.Cbf
