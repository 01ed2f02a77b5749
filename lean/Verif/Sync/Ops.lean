import Verif.Sync.Timer

/-!
# What the operations do
-/

set_option autoImplicit false

namespace Verif.Sync
open Verif.Chain (Header State Err ImportResult)

variable {cfg : Cfg} {env : Env} {m m' m'' : Mgr} {t t' : State} {now : Nat}

/-- Errors of `import_blocks` are always wrapped. -/
theorem importLoop_err {c : Chain.Cfg} : ∀ (hs : List (Header × Chain.Env)) {s s' : State} {a : Chain.Acc} {i : Nat} {e : Err},
    Chain.importLoop c s a i hs = (s', .err e) → ∃ x j n, e = .aborted x j n
  | [], s, s', a, i, e, h => by simp [Chain.importLoop] at h
  | (x, ev) :: hs, s, s', a, i, e, h => by
    rw [Chain.importLoop] at h
    split at h
    · exact importLoop_err hs h
    · exact importLoop_err hs h
    · exact importLoop_err hs h
    · exact importLoop_err hs h
    · simp only [Prod.mk.injEq, Res.err.injEq] at h
      exact ⟨_, _, _, h.2.symm⟩
    · simp at h

theorem importBlocks_err {c : Chain.Cfg} {hs : List (Header × Chain.Env)} {e : Err}
    (h : (Chain.importBlocks c t hs).2 = .err e) : ∃ x j n, e = .aborted x j n := by
  unfold Chain.importBlocks at h
  simp only at h
  split at h
  · split at h
    · simp at h
    · split at h <;> simp at h
  · rename_i s' er hl
    simp only [Res.err.injEq] at h
    subst h
    exact importLoop_err _ hl
  · simp at h

/-- The announcements of a new tip. -/
def announcements (env : Env) (m : Mgr) (t : State) (hash : Nat) : List Out :=
  match t.getBlock hash with
  | none => []
  | some (height, best) => (env.order m.peers.keys).filterMap (fun a =>
      match m.peers.get a with
      | some p => if !p.outbound && decide (height > p.height) then some (.headers a [best]) else none
      | none => none)

theorem broadcastTip_eq (hash : Nat) : m.broadcastTip env t hash = { m with out := m.out ++ announcements env m t hash } := by
  unfold Mgr.broadcastTip announcements
  cases t.getBlock hash with
  | none => simp
  | some p => rfl

theorem mem_announcements (hl : env.Legal) {hash : Nat} {x : Out} : x ∈ announcements env m t hash ↔
    ∃ n best a p, t.getBlock hash = some (n, best) ∧ m.peers.get a = some p ∧ p.outbound = false ∧ p.height < n ∧
      x = .headers a [best] := by
  unfold announcements
  cases hb : t.getBlock hash with
  | none => simp
  | some q =>
    obtain ⟨n, best⟩ := q
    simp only [List.mem_filterMap, (hl.order _).mem_iff]
    constructor
    · rintro ⟨a, ha, h⟩
      split at h
      · rename_i p hp
        split at h
        · rename_i hc
          simp only [Bool.and_eq_true, Bool.not_eq_true', decide_eq_true_eq] at hc
          exact ⟨n, best, a, p, rfl, hp, hc.1, hc.2, by simpa using h.symm⟩
        · simp at h
      · simp at h
    · rintro ⟨n', best', a, p, h1, h2, h3, h4, rfl⟩
      simp only [Option.some.injEq, Prod.mk.injEq] at h1
      obtain ⟨rfl, rfl⟩ := h1
      refine ⟨a, ?_, ?_⟩
      · rw [← AMap.get_isSome_iff, h2]; rfl
      · simp [h2, h3, h4]

theorem announcements_plain (hash : Nat) : ∀ x ∈ announcements env m t hash, x.plain = true := by
  unfold announcements
  intro x hx
  split at hx
  · simp at hx
  · rw [List.mem_filterMap] at hx
    obtain ⟨a, -, h⟩ := hx
    split at h
    · split at h
      · simp only [Option.some.injEq] at h
        subst h; rfl
      · simp at h
    · simp at h

theorem tipEvents_plain (hash height : Nat) (r c : List (Nat × Header)) : ∀ x ∈ tipEvents hash height r c, x.plain = true := by
  unfold tipEvents
  intro x hx
  simp only [List.mem_append, List.mem_map, List.mem_singleton] at hx
  rcases hx with (⟨p, -, rfl⟩ | ⟨p, -, rfl⟩) | rfl <;> rfl

/-- What is reported about a changed tip. -/
def tipReport (env : Env) (m : Mgr) (t : State) (hash height : Nat) (r c : List (Nat × Header)) : List Out :=
  tipEvents hash height r c ++ announcements env m t hash

theorem tipReport_plain (hash height : Nat) (r c : List (Nat × Header)) : ∀ x ∈ tipReport env m t hash height r c, x.plain = true := by
  intro x hx
  rcases List.mem_append.1 hx with hx | hx
  · exact tipEvents_plain _ _ _ _ x hx
  · exact announcements_plain _ x hx

theorem report_changed {header : Header} {hash height : Nat} {r c : List (Nat × Header)} :
    m.report env t (.ok (.tipChanged header hash height r c)) = { m with out := m.out ++ tipReport env m t hash height r c } := by
  simp only [Mgr.report, broadcastTip_eq, tipReport, List.append_assoc]
  rfl

/-- The manager once the headers of a peer are accepted for import. -/
def Mgr.heard (m : Mgr) (now a : Nat) (p : Peer) : Mgr :=
  { m with inflight := m.inflight.erase a, peers := m.peers.insert a { p with lastActive := some now } }

/-- The manager once a peer gave us a new tip. -/
def Mgr.updated (env : Env) (m : Mgr) (t : State) (now a hash height : Nat) (r c : List (Nat × Header)) : Mgr :=
  { (m.report env t (.ok (.tipChanged default hash height r c))).raise a hash height with lastTipUpdate := some now }

/-- Why received headers are not imported. -/
def Ignored (m : Mgr) (t : State) (cfg : Cfg) (a : Nat) (hs : List (Header × Chain.Env)) : Prop :=
  hs = [] ∨ (24 < hs.length ∧ m.inflight.get a = none) ∨ m.peers.get a = none ∨
    ∃ last, hs.getLast? = some last ∧ t.contains (cfg.chain.hash last.1) = true

/-- Received headers: they are ignored, or the peer misbehaves, or they are imported. -/
inductive Headers (cfg : Cfg) (env : Env) (m : Mgr) (t : State) (now a : Nat) (hs : List (Header × Chain.Env)) : Mgr → State → Prop where
  | misbehaved (h : 2000 < hs.length) :
      Headers cfg env m t now a hs ({ m with inflight := m.inflight.erase a }.push (.misbehaved a)) t
  | ignored (h : hs.length ≤ 2000) (i : Ignored m t cfg a hs) :
      Headers cfg env m t now a hs { m with inflight := m.inflight.erase a } t
  | known {p : Peer} (h : hs.length ≤ 2000) (i : Ignored m t cfg a hs) (hp : m.peers.get a = some p) :
      Headers cfg env m t now a hs (m.heard now a p) t
  | unchanged {p : Peer} {m' : Mgr} {first : Header × Chain.Env} {hashes : List Nat} (h : hs.length ≤ 2000) (i : ¬ Ignored m t cfg a hs)
      (hp : m.peers.get a = some p)
      (hr : (Chain.importBlocks cfg.chain t hs).2 = .ok .tipUnchanged) (hf : hs.head? = some first)
      (hl : Chain.locatorHashes cfg.chain (Chain.importBlocks cfg.chain t hs).1 (Chain.importBlocks cfg.chain t hs).1.height = .ok hashes)
      (e : (m.heard now a p).request cfg now a (hashes, cfg.chain.hash first.1) .ignore = .ok m') :
      Headers cfg env m t now a hs m' (Chain.importBlocks cfg.chain t hs).1
  | aborted {p : Peer} {x : Err} {j n : Nat} (h : hs.length ≤ 2000) (i : ¬ Ignored m t cfg a hs) (hp : m.peers.get a = some p)
      (hr : (Chain.importBlocks cfg.chain t hs).2 = .err (.aborted x j n)) :
      Headers cfg env m t now a hs (m.heard now a p) (Chain.importBlocks cfg.chain t hs).1
  | changed {p : Peer} {r : Mgr × Bool} {header : Header} {hash height : Nat} {rv cn : List (Nat × Header)} (h : hs.length < 2000)
      (i : ¬ Ignored m t cfg a hs) (hp : m.peers.get a = some p)
      (hr : (Chain.importBlocks cfg.chain t hs).2 = .ok (.tipChanged header hash height rv cn))
      (e : (((m.heard now a p).updated env (Chain.importBlocks cfg.chain t hs).1 now a hash height rv cn).broadcastTip env
        (Chain.importBlocks cfg.chain t hs).1 hash).sync cfg env (Chain.importBlocks cfg.chain t hs).1 now = .ok r) :
      Headers cfg env m t now a hs r.1 (Chain.importBlocks cfg.chain t hs).1
  | full {p : Peer} {m' : Mgr} {header : Header} {hash height : Nat} {rv cn : List (Nat × Header)} (h : hs.length = 2000)
      (i : ¬ Ignored m t cfg a hs) (hp : m.peers.get a = some p)
      (hr : (Chain.importBlocks cfg.chain t hs).2 = .ok (.tipChanged header hash height rv cn))
      (e : ((m.heard now a p).updated env (Chain.importBlocks cfg.chain t hs).1 now a hash height rv cn).request cfg now a ([hash], zeros)
        .disconnect = .ok m') :
      Headers cfg env m t now a hs m' (Chain.importBlocks cfg.chain t hs).1

theorem headers_ok {a : Nat} {hs : List (Header × Chain.Env)} (e : m.headers cfg env t now a hs = .ok (m', t')) :
    Headers cfg env m t now a hs m' t' := by
  unfold Mgr.headers at e
  cases hf : hs.head? with
  | none =>
    have hnil : hs = [] := List.head?_eq_none_iff.1 hf
    simp only [hf, Res.ok.injEq, Prod.mk.injEq] at e
    obtain ⟨rfl, rfl⟩ := e
    exact .ignored (by simp [hnil]) (.inl hnil)
  | some first =>
    have hne : hs ≠ [] := by rintro rfl; simp at hf
    obtain ⟨last, hl⟩ : ∃ last, hs.getLast? = some last := by
      cases h : hs.getLast? with
      | none => exact absurd (List.getLast?_eq_none_iff.1 h) hne
      | some x => exact ⟨x, rfl⟩
    simp only [hf, hl] at e
    by_cases h1 : hs.length > maxMessageHeaders
    · rw [if_pos h1] at e
      cases e
      exact .misbehaved h1
    · rw [if_neg h1] at e
      have h1' : hs.length ≤ 2000 := by simpa [maxMessageHeaders] using h1
      by_cases h2 : (decide (hs.length > maxUnsolicitedHeaders) && !m.inflight.contains a) = true
      · rw [if_pos h2] at e
        cases e
        simp only [Bool.and_eq_true, decide_eq_true_eq, Bool.not_eq_true', AMap.contains_eq_false_iff] at h2
        exact .ignored h1' (.inr (.inl h2))
      · rw [if_neg h2] at e
        cases hp : m.peers.get a with
        | none =>
          simp only [hp] at e
          cases e
          exact .ignored h1' (.inr (.inr (.inl hp)))
        | some p =>
          simp only [hp] at e
          by_cases h3 : t.contains (cfg.chain.hash last.1) = true
          · rw [if_pos h3] at e
            cases e
            exact .known h1' (.inr (.inr (.inr ⟨last, hl, h3⟩))) hp
          · rw [if_neg h3] at e
            have hi : ¬ Ignored m t cfg a hs := by
              rintro (h | ⟨h, h'⟩ | h | ⟨l, h, h'⟩)
              · exact hne h
              · apply h2
                simp only [Bool.and_eq_true, decide_eq_true_eq, Bool.not_eq_true', AMap.contains_eq_false_iff]
                exact ⟨h, h'⟩
              · rw [h] at hp; simp at hp
              · rw [hl] at h
                cases h
                exact h3 h'
            rw [Res.bind_eq_ok] at e
            obtain ⟨m1, e1, e2⟩ := e
            cases e2
            cases hr : (Chain.importBlocks cfg.chain t hs).2 with
            | panic => simp [hr, Mgr.afterImport] at e1
            | err er =>
              obtain ⟨x, j, n, rfl⟩ := importBlocks_err hr
              simp only [hr, Mgr.afterImport, Mgr.report, Res.ok.injEq] at e1
              subst e1
              exact .aborted h1' hi hp hr
            | ok ir =>
              cases ir with
              | tipUnchanged =>
                simp only [hr, Mgr.afterImport, Mgr.report] at e1
                rw [Res.bind_eq_ok] at e1
                obtain ⟨hashes, e3, e4⟩ := e1
                exact .unchanged h1' hi hp hr hf e3 e4
              | tipChanged header hash height rv cn =>
                simp only [hr, Mgr.afterImport] at e1
                by_cases h4 : hs.length < maxMessageHeaders
                · rw [if_pos h4] at e1
                  rw [Res.bind_eq_ok] at e1
                  obtain ⟨r, e3, e4⟩ := e1
                  cases e4
                  exact .changed h4 hi hp hr e3
                · rw [if_neg h4] at e1
                  refine .full ?_ hi hp hr e1
                  have : ¬ hs.length < 2000 := h4
                  omega

end Verif.Sync
