import Verif.Peer.PropsRetry

/-!
# Property C115, peer manager: which addresses are dialed
-/

set_option autoImplicit false

namespace Verif.Peer
open Verif.Addr (Sock Ip NetAddr Source domainOf has sadd)

variable {cfg : Config} {tr : List Ip}

/-- The addresses drawn from the address book for this call. -/
def Op.drawn : Op → List Cand
  | .init src => src
  | .disconnected _ _ src => src
  | .timer _ src => src
  | _ => []

/-- Outputs are only appended, and connections asked for are as `P` says. -/
def Dials (P : Sock → Prop) (m m' : Mgr) : Prop := ∃ l, m'.out = m.out ++ l ∧ ∀ a, .connect a ∈ l → P a

theorem Dials.refl (P : Sock → Prop) (m : Mgr) : Dials P m m := ⟨[], by simp, by simp⟩

theorem Dials.trans {P : Sock → Prop} {m m' m'' : Mgr} (h : Dials P m m') (h' : Dials P m' m'') : Dials P m m'' := by
  obtain ⟨l, e, hl⟩ := h
  obtain ⟨l', e', hl'⟩ := h'
  refine ⟨l ++ l', by rw [e', e, List.append_assoc], fun a ha => ?_⟩
  rcases List.mem_append.1 ha with x | x
  · exact hl a x
  · exact hl' a x

theorem Dials.mono {P Q : Sock → Prop} {m m' : Mgr} (h : Dials P m m') (i : ∀ a, P a → Q a) : Dials Q m m' := by
  obtain ⟨l, e, hl⟩ := h
  exact ⟨l, e, fun a ha => i a (hl a ha)⟩

theorem Dials.of {P : Sock → Prop} {Q : Out → Prop} {m m' : Mgr} (h : ∃ l, m'.out = m.out ++ l ∧ ∀ o ∈ l, Q o) (i : ∀ a, ¬ Q (.connect a)) : Dials P m m' := by
  obtain ⟨l, e, hl⟩ := h
  exact ⟨l, e, fun a ha => absurd (hl _ ha) (i a)⟩

theorem Dials.emit (P : Sock → Prop) (m : Mgr) {l : List Out} (h : ∀ a, .connect a ∉ l) : Dials P m (m.emit l) := ⟨l, rfl, fun a ha => absurd ha (h a)⟩

theorem connect_dials (m : Mgr) (b : Sock) : Dials (fun a => domainOf a ∈ cfg.domains ∧ a = b) m (m.connect cfg b).2 := by
  unfold Mgr.connect
  by_cases h1 : (m.isConnected b || m.isConnecting b) = true
  · rw [if_pos h1]; exact .refl _ _
  rw [if_neg h1]
  by_cases h2 : domainOf b ∉ cfg.domains
  · rw [if_pos h2]; exact .refl _ _
  rw [if_neg h2]
  refine ⟨[.connect b, .timer connectionTimeout], rfl, fun a ha => ?_⟩
  have : a = b := by simpa using ha
  subst this
  exact ⟨Classical.not_not.1 h2, rfl⟩

theorem maintainLoop_dials (below : Bool) (delta : Nat) : ∀ (fuel : Nat) (m : Mgr) (src : List Cand) (set : List Sock) (m' : Mgr),
    Mgr.maintainLoop cfg below delta fuel m src set = .ok m' → Dials (fun a => domainOf a ∈ cfg.domains ∧ ∃ c ∈ src, c.1.sock = some a) m m' := by
  intro fuel
  induction fuel with
  | zero =>
    intro m src set m' h
    simp only [Mgr.maintainLoop, Res.ok.injEq] at h
    rw [← h]; exact .refl _ _
  | succ k ih =>
    intro m src set m' h
    simp only [Mgr.maintainLoop] at h
    by_cases hs : set.length < delta
    · rw [if_pos hs] at h
      cases hc : choose cfg below src with
      | none => simp only [hc, Res.ok.injEq] at h; rw [← h]; exact .refl _ _
      | some x =>
        obtain ⟨c, src'⟩ := x
        have hp := choose_perm hc
        have sub : ∀ {m1}, Dials (fun a => domainOf a ∈ cfg.domains ∧ ∃ c ∈ src', c.1.sock = some a) m1 m' →
            Dials (fun a => domainOf a ∈ cfg.domains ∧ ∃ c ∈ src, c.1.sock = some a) m1 m' :=
          fun hd => hd.mono fun a ⟨h1, d, h2, h3⟩ => ⟨h1, d, hp.mem_iff.2 (List.mem_cons_of_mem _ h2), h3⟩
        simp only [hc] at h
        cases ha : c.1.sock with
        | none => simp only [ha] at h; exact sub (ih _ _ _ _ h)
        | some a =>
          simp only [ha] at h
          have hd : Dials (fun a => domainOf a ∈ cfg.domains ∧ ∃ c ∈ src, c.1.sock = some a) m (m.connect cfg a).2 :=
            (connect_dials m a).mono fun b ⟨h1, h2⟩ => ⟨h1, c, hp.mem_iff.2 List.mem_cons_self, h2 ▸ ha⟩
          split at h
          · cases h
          · split at h
            · exact (hd.trans (.emit _ _ (by simp))).trans (sub (ih _ _ _ _ h))
            · exact hd.trans (sub (ih _ _ _ _ h))
    · rw [if_neg hs] at h
      simp only [Res.ok.injEq] at h
      rw [← h]; exact .refl _ _

/-- An address that may be dialed. -/
def Dialable (cfg : Config) (op : Op) (a : Sock) : Prop :=
  domainOf a ∈ cfg.domains ∧ (a ∈ cfg.persistent ∨ op = .cmdConnect a ∨ (cfg.persistent = [] ∧ ∃ c ∈ op.drawn, c.1.sock = some a))

theorem maintain_dials {m m' : Mgr} {src : List Cand} {op : Op} (ho : op.drawn = src) (h : m.maintain cfg src = .ok m') : Dials (Dialable cfg op) m m' := by
  unfold Mgr.maintain at h
  by_cases h1 : cfg.persistent ≠ []
  · rw [if_pos h1] at h
    simp only [Res.ok.injEq] at h
    rw [← h]; exact .refl _ _
  · rw [if_neg h1] at h
    have hp := Classical.not_not.1 h1
    exact (maintainLoop_dials _ _ _ _ _ _ _ h).mono fun a ⟨h2, h3⟩ => ⟨h2, .inr (.inr ⟨hp, by rw [ho]; exact h3⟩)⟩

theorem connectAll_dials : ∀ (l : List Sock) (m : Mgr), Dials (fun a => domainOf a ∈ cfg.domains ∧ a ∈ l) m (m.connectAll cfg l)
  | [], m => .refl _ _
  | b :: l, m => by
    simp only [Mgr.connectAll]
    have h1 : Dials (fun a => domainOf a ∈ cfg.domains ∧ a ∈ b :: l) m (m.connect cfg b).2 := (connect_dials m b).mono fun a ⟨x, y⟩ => ⟨x, y ▸ List.mem_cons_self⟩
    have h2 := fun m1 => (connectAll_dials l m1).mono (Q := fun a => domainOf a ∈ cfg.domains ∧ a ∈ b :: l) fun a ⟨x, y⟩ => ⟨x, List.mem_cons_of_mem _ y⟩
    split
    · exact h1.trans (h2 _)
    · exact (h1.trans (.emit _ _ (by simp))).trans (h2 _)

theorem reconnect_dials : ∀ (l : List Sock) (m : Mgr), Dials (fun a => domainOf a ∈ cfg.domains ∧ a ∈ l) m (m.reconnect cfg l)
  | [], m => .refl _ _
  | b :: l, m => by
    simp only [Mgr.reconnect]
    exact ((connect_dials m b).mono fun a ⟨x, y⟩ => ⟨x, y ▸ List.mem_cons_self⟩).trans
      ((reconnect_dials l _).mono fun a ⟨x, y⟩ => ⟨x, List.mem_cons_of_mem _ y⟩)

/-- **C115.** The client asks for connections only with addresses of allowed domains that are configured, that the user asked for, or, if none are
configured, that were drawn from the address book. -/
theorem C115_dialed {h : List Op} {m m' : Mgr} {op : Op} (r : Run cfg tr h m) (lg : op.Legal) (e : m.step cfg op = .ok m') {a : Sock} (ho : .connect a ∈ added m m') :
    domainOf a ∈ cfg.domains ∧ (a ∈ cfg.persistent ∨ op = .cmdConnect a ∨ (cfg.persistent = [] ∧ ∃ c ∈ op.drawn, c.1.sock = some a)) := by
  have hi := run_inv r
  suffices hd : Dials (Dialable cfg op) m m' by
    obtain ⟨l, el, hl⟩ := hd
    rw [added_of el] at ho
    exact hl a ho
  cases op with
  | init src =>
    have hx : m.initialize cfg src = .ok m' := e
    unfold Mgr.initialize at hx
    exact (((connectAll_dials cfg.persistent m).mono fun a ⟨x, y⟩ => ⟨x, .inl y⟩).trans (.emit _ _ (by simp))).trans (maintain_dials rfl hx)
  | tick t =>
    simp only [Mgr.step, Res.ok.injEq] at e
    rw [← e]; exact ⟨[], by simp, by simp⟩
  | attempted b =>
    simp only [Mgr.step, Mgr.peerAttempted] at e
    split at e
    · cases e
    · simp only [Res.ok.injEq] at e
      rw [← e]; exact .refl _ _
  | connected b loc link height nonce => exact .of (peerConnected_out e).1 (by simp [NewConnOut])
  | disconnected b d src =>
    have hl : Dials (Dialable cfg (.disconnected b d src)) m (m.forget b d) := by
      refine ⟨m.lostEvent b d, rfl, fun a ha => ?_⟩
      unfold Mgr.lostEvent at ha
      split at ha
      · simp at ha
      · split at ha <;> simp at ha
    rcases peerDisconnected_parts e with ⟨_, h1⟩ | ⟨_, h1⟩
    · obtain ⟨_, e2⟩ := persistentDisconnected_parts h1
      refine hl.trans ?_
      rw [e2]
      exact ⟨_, rfl, by simp⟩
    · exact hl.trans (maintain_dials rfl h1)
  | message b mg height hook msg => exact .of (message_parts hi e).1 (by simp [MsgOut])
  | timedOut b =>
    simp only [Mgr.step, Res.ok.injEq] at e
    subst e
    exact .of (disconnect_ext m b _).out (by simp)
  | misbehaved b =>
    simp only [Mgr.step, Res.ok.injEq] at e
    subst e
    exact .of (disconnect_ext m b _).out (by simp)
  | cmdConnect b =>
    simp only [Mgr.step, Res.ok.injEq] at e
    subst e
    exact (connect_dials (m.whitelist b) b).mono fun a ⟨x, y⟩ => ⟨x, .inr (.inl (by rw [y]))⟩
  | cmdDisconnect b =>
    simp only [Mgr.step, Res.ok.injEq] at e
    subst e
    exact .of (disconnect_ext m b _).out (by simp)
  | timer ord src =>
    obtain ⟨m1, h1, rfl⟩ := timerExpired_parts e
    have d0 : Dials (Dialable cfg (.timer ord src)) m (m.dropAll (m.timedOut ord)) := .of (dropAll_ext (m.timedOut ord) m).out (by simp [DropOut])
    have d1 : Dials (Dialable cfg (.timer ord src)) (m.dropAll (m.timedOut ord)) m1 := by
      rcases idle_parts h1 with q | ⟨m2, h2, _, _, eo⟩
      · rw [q]; exact .refl _ _
      · exact (maintain_dials rfl h2).trans ⟨_, eo, by simp⟩
    have d2 : Dials (Dialable cfg (.timer ord src)) m1 (m1.maintainPersistent cfg ord) := by
      have hr := reconnect_dials (cfg := cfg) (ord m1.due) m1.clearDue
      have hq : Dials (fun a => domainOf a ∈ cfg.domains ∧ a ∈ ord m1.due) m1 (m1.maintainPersistent cfg ord) := hr
      refine hq.mono fun a ⟨x, y⟩ => ⟨x, .inl ?_⟩
      have hdue : a ∈ m1.due := ((lg m1.due).mem_iff).1 y
      have e1 : m1.disconnected = m.disconnected := by rw [(idle_ext h1).disc, (dropAll_ext _ m).disc]
      unfold Mgr.due at hdue
      rw [e1, List.mem_map] at hdue
      obtain ⟨p, hpm, rfl⟩ := hdue
      exact run_disconnected r p.1 (List.mem_map.2 ⟨p, (List.mem_filter.1 hpm).1, rfl⟩)
    exact (d0.trans d1).trans d2

end Verif.Peer
