import Verif.Sync.Lemmas

/-!
# What happens when the timer fires
-/

set_option autoImplicit false

namespace Verif.Sync
open Verif.Chain (Header State Err ImportResult)

variable {cfg : Cfg} {env : Env} {m m' m'' : Mgr} {t : State} {now : Nat}

/-- The manager without the requests to some peers. -/
def Mgr.without (m : Mgr) (as : List Nat) : Mgr := { m with inflight := as.foldl AMap.erase m.inflight }

theorem foldl_erase_get (as : List Nat) (f : AMap Nat Request) (a : Nat) :
    (as.foldl AMap.erase f).get a = if a ∈ as then none else f.get a := by
  induction as generalizing f with
  | nil => simp
  | cons b bs ih =>
    rw [List.foldl_cons, ih]
    by_cases h1 : a ∈ bs
    · simp [h1]
    · by_cases h2 : a = b
      · subst h2; simp
      · simp [h1, h2, AMap.get_erase_ne _ (Ne.symm h2)]

theorem foldl_erase_nodup (as : List Nat) (f : AMap Nat Request) (h : f.keys.Nodup) : (as.foldl AMap.erase f).keys.Nodup := by
  induction as generalizing f with
  | nil => exact h
  | cons b bs ih => exact ih _ (AMap.nodup_erase h _)

/-- Requests to peers that are not among `as` look the same without the requests to `as`. -/
theorem Asks.without {K : OnTimeout → Prop} {o : List Out} (h : Asks now K m m' o) (hd : m.inflight.keys.Nodup) (as : List Nat)
    (ha : ∀ a ∈ as, m.inflight.get a ≠ none) : Asks now K (m.without as) (m'.without as) o := by
  refine ⟨h.out, fun a => ?_, h.nodup, fun _ => ?_, h.upd⟩
  · simp only [Mgr.without, foldl_erase_get]
    rcases h.each a with ⟨h1, h2, h3⟩ | ⟨l, p, k, h1, h2, h3, h4, h5, h6⟩
    · exact .inl ⟨h1, h2, by rw [h3]⟩
    · have hn : a ∉ as := fun hm => ha a hm h3
      exact .inr ⟨l, p, k, h1, h2, by simp [hn, h3], h4, by simp [hn, h5], h6⟩
  · exact foldl_erase_nodup _ _ (h.nodup' hd)


/-- The request is retried at most twice more. -/
def Few (k : OnTimeout) : Prop := ∃ n, k = .retry n ∧ n < 3

/-- The outputs while requests time out. -/
def ExpireOut (cfg : Cfg) (rs : List (Nat × Request)) (x : Out) : Prop :=
  (∃ a r, (a, r) ∈ rs ∧ x = .disconnect a ∧ (r.onTimeout = .disconnect ∨ r.onTimeout = .retry 0)) ∨
  (∃ a r n b, (a, r) ∈ rs ∧ r.onTimeout = .retry (n + 1) ∧ b ≠ a ∧ x = .getHeaders b r.locators) ∨
  x = .setTimer cfg.timeout

/-- `b` could be asked instead of a peer that did not answer. -/
def Mgr.Free (m : Mgr) (rs : List (Nat × Request)) (l : List Nat) (b : Nat) : Prop :=
  m.candidate l b = true ∧ b ∉ rs.map (·.1)

theorem candidate_iff {l : List Nat} {b : Nat} : m.candidate l b = true ↔
    ∃ p, m.peers.get b = some p ∧ m.inflight.get b = none ∧ p.outbound = true ∧ ∀ x, p.lastAsked = some x → x.1 ≠ l := by
  unfold Mgr.candidate
  cases hp : m.peers.get b with
  | none => simp
  | some p =>
    simp only [Bool.and_eq_true, Bool.not_eq_true', Option.some.injEq, exists_eq_left', AMap.contains_eq_false_iff]
    cases hl : p.lastAsked with
    | none => simp
    | some x => simp [and_assoc]

theorem retryWith_ok (hl : env.Legal) {a : Nat} {r : Request} {n : Nat} (e : m.retryWith cfg env now a r n = .ok m') (hn : n < 3) :
    ∃ o, Asks now Few m m' o ∧
      ((o = [] ∧ m' = m ∧ ∀ b, b ≠ a → m.candidate r.locators.1 b = false) ∨
        ∃ b, b ≠ a ∧ o = [.getHeaders b r.locators, .setTimer cfg.timeout]) := by
  unfold Mgr.retryWith at e
  cases hp : env.pick a (m.peers.keys.filter (fun b => decide (b ≠ a) && m.candidate r.locators.1 b)) with
  | none =>
    simp only [hp, Res.ok.injEq] at e
    subst e
    refine ⟨[], .refl, .inl ⟨rfl, rfl, fun b hb => ?_⟩⟩
    by_contra hc
    have hc : m.candidate r.locators.1 b = true := by simpa using hc
    have hmem : b ∈ m.peers.keys.filter (fun b => decide (b ≠ a) && m.candidate r.locators.1 b) := by
      rw [List.mem_filter]
      obtain ⟨p, h1, -⟩ := candidate_iff.1 hc
      refine ⟨?_, by simp [hb, hc]⟩
      rw [← AMap.get_isSome_iff, h1]; rfl
    obtain ⟨c, hc⟩ := hl.pick_some a _ (List.ne_nil_of_mem hmem)
    rw [hc] at hp
    simp at hp
  | some b =>
    simp only [hp] at e
    have hmem := hl.pick_mem _ _ _ hp
    rw [List.mem_filter] at hmem
    have hmem := hmem.2
    simp only [Bool.and_eq_true, decide_eq_true_eq] at hmem
    obtain ⟨p, h1, h2, -⟩ := candidate_iff.1 hmem.2
    obtain ⟨o, h3, h4⟩ := request_ok (K := Few) e ⟨n, rfl, hn⟩
    refine ⟨o, h3, .inr ⟨b, hmem.1, ?_⟩⟩
    rcases h4 with ⟨-, -, h4 | h4⟩ | ⟨h4, -⟩
    · rw [AMap.contains_iff, ← AMap.get_isSome_iff, h2] at h4
      simp at h4
    · rw [h4] at h1; simp at h1
    · exact h4

/-- Requests that time out: they are no longer outstanding, and some are sent to other peers. -/
theorem expireAll_ok (hl : env.Legal) : ∀ (rs : List (Nat × Request)) {m : Mgr} {force : Bool} {r : Mgr × Bool},
    m.inflight.keys.Nodup → (rs.map (·.1)).Nodup → (∀ p ∈ rs, m.inflight.get p.1 ≠ none) →
    (∀ p ∈ rs, ∀ n, p.2.onTimeout = .retry n → n ≤ 3) →
    Mgr.expireAll cfg env now rs m force = .ok r →
    ∃ o, Asks now Few (m.without (rs.map (·.1))) r.1 o ∧ (∀ x ∈ o, ExpireOut cfg rs x) ∧
      (∀ p ∈ rs, p.2.onTimeout = .disconnect ∨ p.2.onTimeout = .retry 0 → Out.disconnect p.1 ∈ o) ∧
      (∀ p ∈ rs, ∀ n, p.2.onTimeout = .retry (n + 1) →
        (∃ b, b ≠ p.1 ∧ Out.getHeaders b p.2.locators ∈ o) ∨
        ∀ b, b ≠ p.1 → m.Free rs p.2.locators.1 b → requests b o ≠ []) ∧
      (r.2 = true ↔ force = true ∨ ∃ a, Out.disconnect a ∈ o) ∧ r.1.lastIdle = m.lastIdle
  | [], m, force, r, _, _, _, _, e => by
    simp only [Mgr.expireAll, Res.ok.injEq] at e
    subst e
    exact ⟨[], .refl, by simp, by simp, by simp, by simp, rfl⟩
  | (a, q) :: rs, m, force, r, hd, hk, hin, hret, e => by
    simp only [List.map_cons, List.nodup_cons] at hk
    have hin' : ∀ p ∈ rs, AMap.get (m.inflight.erase a) p.1 ≠ none := by
      intro p hp
      have hne : a ≠ p.1 := by
        rintro rfl
        exact hk.1 (List.mem_map_of_mem hp)
      rw [AMap.get_erase_ne _ hne]
      exact hin p (by simp [hp])
    have hret' : ∀ p ∈ rs, ∀ n, p.2.onTimeout = .retry n → n ≤ 3 := fun p hp => hret p (by simp [hp])
    have hd' := AMap.nodup_erase hd a
    have mono : ∀ x, ExpireOut cfg rs x → ExpireOut cfg ((a, q) :: rs) x := by
      rintro x (⟨b, r, h, hx⟩ | ⟨b, r, n, c, h, hx⟩ | h)
      · exact .inl ⟨b, r, by simp [h], hx⟩
      · exact .inr (.inl ⟨b, r, n, c, by simp [h], hx⟩)
      · exact .inr (.inr h)
    have free : ∀ {l : List Nat} {b : Nat}, m.Free ((a, q) :: rs) l b → { m with inflight := m.inflight.erase a }.Free rs l b := by
      intro l b h
      obtain ⟨h1, h2⟩ := h
      simp only [List.map_cons, List.mem_cons, not_or] at h2
      refine ⟨?_, h2.2⟩
      rw [candidate_iff] at h1 ⊢
      obtain ⟨p, g1, g2, g3⟩ := h1
      exact ⟨p, g1, by simp only; rw [AMap.get_erase_ne _ (Ne.symm h2.1)]; exact g2, g3⟩
    have drop : ∀ {b : Bool} {m1 : Mgr}, m1 = { m with inflight := m.inflight.erase a }.push (.disconnect a) →
        (q.onTimeout = .disconnect ∨ q.onTimeout = .retry 0) →
        Mgr.expireAll cfg env now rs m1 true = .ok r →
        ∃ o, Asks now Few (m.without (((a, q) :: rs).map (·.1))) r.1 o ∧ (∀ x ∈ o, ExpireOut cfg ((a, q) :: rs) x) ∧
          (∀ p ∈ (a, q) :: rs, p.2.onTimeout = .disconnect ∨ p.2.onTimeout = .retry 0 → Out.disconnect p.1 ∈ o) ∧
          (∀ p ∈ (a, q) :: rs, ∀ n, p.2.onTimeout = .retry (n + 1) →
            (∃ b, b ≠ p.1 ∧ Out.getHeaders b p.2.locators ∈ o) ∨
            ∀ b, b ≠ p.1 → m.Free ((a, q) :: rs) p.2.locators.1 b → requests b o ≠ []) ∧
          (r.2 = true ↔ force = true ∨ ∃ a, Out.disconnect a ∈ o) ∧ r.1.lastIdle = m.lastIdle := by
      rintro b m1 rfl hq e
      obtain ⟨o, h1, h2, h3, h4, h5, h6⟩ := expireAll_ok hl rs hd' hk.2 hin' hret' e
      have h0 : Asks now Few (m.without (((a, q) :: rs).map (·.1)))
          (({ m with inflight := m.inflight.erase a }.push (.disconnect a)).without (List.map (fun p : Nat × Request => p.1) rs)) [.disconnect a] :=
        asks_push (m := m.without (((a, q) :: rs).map (·.1))) (x := .disconnect a) rfl
      refine ⟨[.disconnect a] ++ o, h0.trans h1, ?_, ?_, ?_, ?_, h6⟩
      · intro x hx
        rcases List.mem_append.1 hx with hx | hx
        · rw [List.mem_singleton] at hx
          exact .inl ⟨a, q, by simp, hx, hq⟩
        · exact mono x (h2 x hx)
      · intro p hp hq'
        rcases List.mem_cons.1 hp with rfl | hp
        · simp
        · exact List.mem_append_right _ (h3 p hp hq')
      · intro p hp n hn
        rcases List.mem_cons.1 hp with rfl | hp
        · simp only at hn
          rw [hn] at hq
          simp at hq
        · rcases h4 p hp n hn with ⟨b, hb, h⟩ | h
          · exact .inl ⟨b, hb, List.mem_append_right _ h⟩
          · refine .inr fun b hb hf => ?_
            rw [requests_append]
            exact fun hc => h b hb (free hf) (List.append_eq_nil_iff.1 hc).2
      · rw [h5]
        constructor
        · intro _; exact .inr ⟨a, by simp⟩
        · intro _; exact .inl rfl
    rw [Mgr.expireAll] at e
    cases hq : q.onTimeout with
    | ignore =>
      simp only [hq] at e
      obtain ⟨o, h1, h2, h3, h4, h5, h6⟩ := expireAll_ok hl rs (m := { m with inflight := m.inflight.erase a }) hd' hk.2 hin' hret' e
      refine ⟨o, h1, fun x hx => mono x (h2 x hx), ?_, ?_, h5, h6⟩
      · intro p hp hq'
        rcases List.mem_cons.1 hp with rfl | hp
        · simp only [hq] at hq'
          simp at hq'
        · exact h3 p hp hq'
      · intro p hp n hn
        rcases List.mem_cons.1 hp with rfl | hp
        · simp only [hq] at hn
          simp at hn
        · rcases h4 p hp n hn with h | h
          · exact .inl h
          · exact .inr fun b hb hf => h b hb (free hf)
    | disconnect =>
      simp only [hq] at e
      exact drop (b := true) rfl (.inl hq) e
    | retry n =>
      cases n with
      | zero =>
        simp only [hq] at e
        exact drop (b := true) rfl (.inr hq) e
      | succ n =>
        simp only [hq] at e
        rw [Res.bind_eq_ok] at e
        obtain ⟨m1, e1, e2⟩ := e
        have hn3 : n < 3 := by
          have := hret (a, q) (by simp) (n + 1) hq
          omega
        obtain ⟨o1, g1, g2⟩ := retryWith_ok hl e1 hn3
        have hd1 := g1.nodup' hd'
        have hin1 : ∀ p ∈ rs, m1.inflight.get p.1 ≠ none := by
          intro p hp
          rcases g1.each p.1 with ⟨-, -, h⟩ | ⟨l, p', k, -, -, -, -, h, -⟩
          · rw [h]; exact hin' p hp
          · rw [h]; simp
        obtain ⟨o, h1, h2, h3, h4, h5, h6⟩ := expireAll_ok hl rs hd1 hk.2 hin1 hret' e2
        have g3 : Asks now Few (m.without (((a, q) :: rs).map (·.1))) (m1.without (rs.map (·.1))) o1 :=
          g1.without hd' (List.map (fun p : Nat × Request => p.1) rs) (fun b hb => by
            obtain ⟨p, hp, rfl⟩ := List.mem_map.1 hb
            exact hin' p hp)
        have hi1 : m1.lastIdle = m.lastIdle := by
          unfold Mgr.retryWith at e1
          split at e1
          · unfold Mgr.request at e1
            split at e1
            · cases e1; rfl
            · split at e1
              · cases e1; rfl
              · split at e1
                · simp at e1
                · cases e1; rfl
          · cases e1; rfl
        refine ⟨o1 ++ o, g3.trans h1, ?_, ?_, ?_, ?_, by rw [h6, hi1]⟩
        · intro x hx
          rcases List.mem_append.1 hx with hx | hx
          · rcases g2 with ⟨rfl, -⟩ | ⟨b, hb, rfl⟩
            · simp at hx
            · simp only [List.mem_cons, List.not_mem_nil, or_false] at hx
              rcases hx with rfl | rfl
              · exact .inr (.inl ⟨a, q, n, b, by simp, hq, hb, rfl⟩)
              · exact .inr (.inr rfl)
          · exact mono x (h2 x hx)
        · intro p hp hq'
          rcases List.mem_cons.1 hp with rfl | hp
          · simp only [hq] at hq'
            simp at hq'
          · exact List.mem_append_right _ (h3 p hp hq')
        · intro p hp n' hn'
          rcases List.mem_cons.1 hp with rfl | hp
          · rcases g2 with ⟨rfl, rfl, g2⟩ | ⟨b, hb, rfl⟩
            · refine .inr fun b hb hf => ?_
              have := (free hf).1
              rw [g2 b hb] at this
              simp at this
            · exact .inl ⟨b, hb, by simp⟩
          · rcases h4 p hp n' hn' with ⟨b, hb, h⟩ | h
            · exact .inl ⟨b, hb, List.mem_append_right _ h⟩
            · refine .inr fun b hb hf => ?_
              rw [requests_append]
              rcases g1.each b with ⟨k1, k2, k3⟩ | ⟨l, p', k, k1, -⟩
              · have hf' := free hf
                have : m1.Free rs p.2.locators.1 b := by
                  refine ⟨?_, hf'.2⟩
                  have h0 := hf'.1
                  rw [candidate_iff] at h0 ⊢
                  rw [k2, k3]
                  exact h0
                exact fun hc => h b hb this (List.append_eq_nil_iff.1 hc).2
              · rw [k1]; simp
        · rw [h5]
          constructor
          · rintro (h | ⟨b, h⟩)
            · exact .inl h
            · exact .inr ⟨b, List.mem_append_right _ h⟩
          · rintro (h | ⟨b, h⟩)
            · exact .inl h
            · rcases List.mem_append.1 h with h | h
              · rcases g2 with ⟨rfl, -⟩ | ⟨c, -, rfl⟩ <;> simp at h
              · exact .inr ⟨b, h⟩

/-- The requests that time out. -/
theorem mem_timedOut (hl : env.Legal) {a : Nat} {r : Request} :
    (a, r) ∈ m.timedOut cfg env now ↔ m.inflight.get a = some r ∧ cfg.timeout ≤ now - r.sentAt := by
  unfold Mgr.timedOut
  rw [List.mem_filterMap]
  constructor
  · rintro ⟨b, -, h⟩
    split at h
    · rename_i q hq
      split at h
      · rename_i hge
        simp only [Option.some.injEq, Prod.mk.injEq] at h
        obtain ⟨rfl, rfl⟩ := h
        exact ⟨hq, hge⟩
      · simp at h
    · simp at h
  · rintro ⟨h1, h2⟩
    refine ⟨a, ?_, by simp [h1, h2]⟩
    rw [(hl.order _).mem_iff, ← AMap.get_isSome_iff, h1]
    rfl

theorem timedOut_keys (hl : env.Legal) (hd : m.inflight.keys.Nodup) : ((m.timedOut cfg env now).map (·.1)).Nodup := by
  have h1 : (env.order m.inflight.keys).Nodup := (hl.order _).nodup_iff.2 hd
  unfold Mgr.timedOut
  rw [List.map_filterMap]
  refine List.Nodup.filterMap ?_ h1
  intro a a' b hb hb'
  simp only [Option.mem_def, Option.map_eq_some_iff] at hb hb'
  obtain ⟨p, hp, rfl⟩ := hb
  obtain ⟨p', hp', he⟩ := hb'
  split at hp
  · split at hp
    · cases hp
      split at hp'
      · split at hp'
        · cases hp'
          exact he.symm
        · simp at hp'
      · simp at hp'
    · simp at hp
  · simp at hp

end Verif.Sync
