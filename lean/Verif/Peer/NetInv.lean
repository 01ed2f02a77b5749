import Verif.Peer.Net
import Verif.Peer.PropsRetry

/-!
# Invariants of the peer manager with the reactor
-/

set_option autoImplicit false

namespace Verif.Peer
open Verif.Addr (Sock Ip Domain NetAddr Source has isLocal domainOf sadd)

/-! ### Traces: requests and events on one address -/

/-- A request on `a`: `true` to connect, `false` to disconnect. -/
def req (a : Sock) : Out → Option Bool
  | .connect b => if b = a then some true else none
  | .disconnect b _ => if b = a then some false else none
  | _ => none

def reqs (a : Sock) (l : List Out) : List Bool := l.filterMap (req a)

/-- An event on `a`: `true` for connected, `false` for disconnected. -/
def ev (a : Sock) : Out → Option Bool
  | .evConnected b _ _ => if b = a then some true else none
  | .evDisconnected b _ => if b = a then some false else none
  | _ => none

def evs (a : Sock) (l : List Out) : List Bool := l.filterMap (ev a)

theorem reqs_append (a : Sock) (l l' : List Out) : reqs a (l ++ l') = reqs a l ++ reqs a l' := List.filterMap_append
theorem evs_append (a : Sock) (l l' : List Out) : evs a (l ++ l') = evs a l ++ evs a l' := List.filterMap_append

theorem true_mem_reqs {a : Sock} {l : List Out} : true ∈ reqs a l ↔ .connect a ∈ l := by
  unfold reqs
  rw [List.mem_filterMap]
  constructor
  · rintro ⟨o, ho, hr⟩
    cases o <;> simp only [req] at hr <;> try simp at hr
    · rw [← hr]; exact ho
  · intro h
    exact ⟨_, h, by simp [req]⟩

inductive Kind where
  | absent
  | connecting
  | connected
  | disconnecting
  deriving DecidableEq

def kindOf : Option Peer → Kind
  | none => .absent
  | some (.connecting _) => .connecting
  | some (.connected _ _) => .connected
  | some .disconnecting => .disconnecting

def Mgr.kind (m : Mgr) (a : Sock) : Kind := kindOf (m.peers.get a)

theorem isConnected_kind (m : Mgr) (a : Sock) : m.isConnected a = true ↔ m.kind a = .connected := by
  unfold Mgr.isConnected Mgr.kind
  cases m.peers.get a with
  | none => simp [kindOf]
  | some p => cases p <;> simp [kindOf]

theorem isConnecting_kind (m : Mgr) (a : Sock) : m.isConnecting a = true ↔ m.kind a = .connecting := by
  unfold Mgr.isConnecting Mgr.kind
  cases m.peers.get a with
  | none => simp [kindOf]
  | some p => cases p <;> simp [kindOf]

theorem isDisconnecting_kind (m : Mgr) (a : Sock) : m.isDisconnecting a = true ↔ m.kind a = .disconnecting := by
  unfold Mgr.isDisconnecting Mgr.kind
  cases m.peers.get a with
  | none => simp [kindOf]
  | some p => cases p <;> simp [kindOf]

theorem contains_kind (m : Mgr) (a : Sock) : m.peers.contains a = true ↔ m.kind a ≠ .absent := by
  unfold AMap.contains Mgr.kind
  cases m.peers.get a with
  | none => simp [kindOf]
  | some p => cases p <;> simp [kindOf]

/-- The outputs added to `m`; for every address, `R` relates its states and the requests on it; there are no events. -/
def Tr (R : Kind → List Bool → Kind → Prop) (m m' : Mgr) : Prop :=
  ∃ l, m'.out = m.out ++ l ∧ ∀ a, R (m.kind a) (reqs a l) (m'.kind a) ∧ evs a l = []

/-- Opening connections. -/
def WC (k : Kind) (w : List Bool) (k' : Kind) : Prop :=
  (k' = k ∧ w = []) ∨ ((k = .absent ∨ k = .disconnecting) ∧ k' = .connecting ∧ w = [true])

/-- Closing what is listed. -/
def WD (k : Kind) (w : List Bool) (k' : Kind) : Prop :=
  (k' = k ∧ w = []) ∨ (k ≠ .absent ∧ k' = .disconnecting ∧ w ≠ [] ∧ ∀ b ∈ w, b = false)

/-- Closing a connection. -/
def WM (k : Kind) (w : List Bool) (k' : Kind) : Prop :=
  (k' = k ∧ w = []) ∨ (k = .connected ∧ k' = .disconnecting ∧ w = [false])

theorem Tr.trans {R : Kind → List Bool → Kind → Prop} (t : ∀ k w k' w' k'', R k w k' → R k' w' k'' → R k (w ++ w') k'')
    {m m' m'' : Mgr} (h : Tr R m m') (h' : Tr R m' m'') : Tr R m m'' := by
  obtain ⟨l, e, x⟩ := h
  obtain ⟨l', e', x'⟩ := h'
  refine ⟨l ++ l', by rw [e', e, List.append_assoc], fun a => ?_⟩
  rw [reqs_append, evs_append, (x a).2, (x' a).2]
  exact ⟨t _ _ _ _ _ (x a).1 (x' a).1, rfl⟩

theorem wc_trans (k : Kind) (w : List Bool) (k' : Kind) (w' : List Bool) (k'' : Kind) (h : WC k w k') (h' : WC k' w' k'') :
    WC k (w ++ w') k'' := by
  rcases h with ⟨rfl, rfl⟩ | ⟨h1, rfl, rfl⟩
  · simpa using h'
  · rcases h' with ⟨rfl, rfl⟩ | ⟨h2, _, _⟩
    · exact Or.inr ⟨h1, rfl, rfl⟩
    · rcases h2 with h2 | h2 <;> simp at h2

theorem wd_trans (k : Kind) (w : List Bool) (k' : Kind) (w' : List Bool) (k'' : Kind) (h : WD k w k') (h' : WD k' w' k'') :
    WD k (w ++ w') k'' := by
  rcases h with ⟨rfl, rfl⟩ | ⟨h1, rfl, h3, h4⟩
  · simpa using h'
  · rcases h' with ⟨rfl, rfl⟩ | ⟨_, rfl, _, h5⟩
    · right; rw [List.append_nil]; exact ⟨h1, rfl, h3, h4⟩
    · refine Or.inr ⟨h1, rfl, by simp [h3], ?_⟩
      intro b hb
      rcases List.mem_append.1 hb with x | x
      · exact h4 b x
      · exact h5 b x

/-- A step without requests and events that leaves the states alone. -/
theorem tr_same {R : Kind → List Bool → Kind → Prop} (hr : ∀ k, R k [] k) {m m' : Mgr} (k : ∀ a, m'.kind a = m.kind a)
    {l : List Out} (e : m'.out = m.out ++ l) (h : ∀ a, ∀ o ∈ l, req a o = none ∧ ev a o = none) : Tr R m m' := by
  refine ⟨l, e, fun a => ?_⟩
  have h1 : reqs a l = [] := List.filterMap_eq_nil_iff.2 (fun o ho => (h a o ho).1)
  have h2 : evs a l = [] := List.filterMap_eq_nil_iff.2 (fun o ho => (h a o ho).2)
  rw [h1, h2, k a]
  exact ⟨hr _, rfl⟩

theorem wc_refl (k : Kind) : WC k [] k := Or.inl ⟨rfl, rfl⟩
theorem wd_refl (k : Kind) : WD k [] k := Or.inl ⟨rfl, rfl⟩
theorem wm_refl (k : Kind) : WM k [] k := Or.inl ⟨rfl, rfl⟩

theorem tr_refl {R : Kind → List Bool → Kind → Prop} (hr : ∀ k, R k [] k) (m : Mgr) : Tr R m m :=
  tr_same hr (fun _ => rfl) (List.append_nil _).symm (by simp)

variable {cfg : Config} {tr : List Ip}

theorem connect_tr (m : Mgr) (a : Sock) : Tr WC m (m.connect cfg a).2 := by
  rcases connect_cases m cfg a with ⟨e, _⟩ | ⟨e, _⟩ | ⟨e, _, n1, n2⟩
  · rw [e]; exact tr_refl wc_refl m
  · rw [e]; exact tr_refl wc_refl m
  · rw [e]
    refine ⟨_, rfl, fun b => ?_⟩
    by_cases hb : a = b
    · subst hb
      refine ⟨Or.inr ⟨?_, ?_, ?_⟩, ?_⟩
      · have k1 : m.kind a ≠ .connected := fun h => by rw [(isConnected_kind m a).2 h] at n1; simp at n1
        have k2 : m.kind a ≠ .connecting := fun h => by rw [(isConnecting_kind m a).2 h] at n2; simp at n2
        revert k1 k2
        cases m.kind a <;> simp
      · simp [Mgr.kind, Mgr.dial, kindOf]
      · simp [reqs, req]
      · simp [evs, ev]
    · refine ⟨Or.inl ⟨?_, ?_⟩, ?_⟩
      · simp only [Mgr.kind, Mgr.dial, AMap.get_insert, if_neg hb]
      · simp [reqs, req, hb]
      · simp [evs, ev]

theorem tr_emit {R : Kind → List Bool → Kind → Prop} (hr : ∀ k, R k [] k) (m : Mgr) {l : List Out}
    (h : ∀ a, ∀ o ∈ l, req a o = none ∧ ev a o = none) : Tr R m (m.emit l) := tr_same hr (fun _ => rfl) rfl h

theorem maintainLoop_tr (below : Bool) (delta : Nat) :
    ∀ (fuel : Nat) (m : Mgr) (src : List Cand) (set : List Sock) (m' : Mgr),
      Mgr.maintainLoop cfg below delta fuel m src set = .ok m' → Tr WC m m' := by
  intro fuel
  induction fuel with
  | zero =>
    intro m src set m' h
    simp only [Mgr.maintainLoop, Res.ok.injEq] at h
    rw [← h]; exact tr_refl wc_refl m
  | succ n ih =>
    intro m src set m' h
    simp only [Mgr.maintainLoop] at h
    by_cases h1 : set.length < delta
    · rw [if_pos h1] at h
      cases hc : choose cfg below src with
      | none =>
        simp only [hc, Res.ok.injEq] at h
        rw [← h]; exact tr_refl wc_refl m
      | some x =>
        obtain ⟨c, src'⟩ := x
        simp only [hc] at h
        cases hs : c.1.sock with
        | none => simp only [hs] at h; exact ih _ _ _ _ h
        | some a =>
          simp only [hs] at h
          by_cases h2 : (cfg.dbg && m.isConnected a) = true
          · rw [if_pos h2] at h; simp at h
          rw [if_neg h2] at h
          by_cases h3 : (m.connect cfg a).1 = true
          · rw [if_pos h3] at h
            refine ((connect_tr m a).trans wc_trans (tr_emit wc_refl _ ?_)).trans wc_trans (ih _ _ _ _ h)
            intro b o ho
            simp only [List.mem_cons, List.not_mem_nil, or_false] at ho
            rw [ho]; exact ⟨rfl, rfl⟩
          · rw [if_neg h3] at h
            exact (connect_tr m a).trans wc_trans (ih _ _ _ _ h)
    · rw [if_neg h1] at h
      simp only [Res.ok.injEq] at h
      rw [← h]; exact tr_refl wc_refl m

theorem maintain_tr {m m' : Mgr} {src : List Cand} (h : m.maintain cfg src = .ok m') : Tr WC m m' := by
  unfold Mgr.maintain at h
  by_cases h1 : cfg.persistent ≠ []
  · rw [if_pos h1] at h
    simp only [Res.ok.injEq] at h
    rw [← h]; exact tr_refl wc_refl m
  · rw [if_neg h1] at h
    exact maintainLoop_tr _ _ _ _ _ _ _ h

theorem connectAll_tr : ∀ (l : List Sock) (m : Mgr), Tr WC m (m.connectAll cfg l) := by
  intro l
  induction l with
  | nil => intro m; exact tr_refl wc_refl m
  | cons a l ih =>
    intro m
    simp only [Mgr.connectAll]
    refine Tr.trans wc_trans ?_ (ih _)
    by_cases h : (m.connect cfg a).1 = true
    · rw [if_pos h]; exact connect_tr m a
    · rw [if_neg h]
      refine (connect_tr m a).trans wc_trans (tr_emit wc_refl _ ?_)
      intro b o ho
      simp only [List.mem_cons, List.not_mem_nil, or_false] at ho
      rw [ho]; exact ⟨rfl, rfl⟩

theorem initialize_tr {m m' : Mgr} {src : List Cand} (h : m.initialize cfg src = .ok m') : Tr WC m m' := by
  unfold Mgr.initialize at h
  refine (connectAll_tr cfg.persistent m).trans wc_trans ((tr_emit wc_refl _ ?_).trans wc_trans (maintain_tr h))
  intro b o ho
  simp only [List.mem_cons, List.not_mem_nil, or_false] at ho
  rw [ho]; exact ⟨rfl, rfl⟩

theorem reconnect_tr : ∀ (l : List Sock) (m : Mgr), Tr WC m (m.reconnect cfg l) := by
  intro l
  induction l with
  | nil => intro m; exact tr_refl wc_refl m
  | cons a l ih => intro m; exact (connect_tr m a).trans wc_trans (ih _)

theorem drop_kind (m : Mgr) (a : Sock) (r : Reason) (b : Sock) :
    (m.drop a r).kind b = if a = b then .disconnecting else m.kind b := by
  simp only [Mgr.kind, Mgr.drop, AMap.get_insert]
  by_cases h : a = b
  · rw [if_pos h, if_pos h]; rfl
  · rw [if_neg h, if_neg h]

theorem drop_tr (m : Mgr) (a : Sock) (r : Reason) (h : m.kind a ≠ .absent) : Tr WD m (m.drop a r) := by
  refine ⟨_, rfl, fun b => ?_⟩
  rw [drop_kind]
  by_cases hb : a = b
  · subst hb
    exact ⟨Or.inr ⟨h, by simp, by simp [reqs, req], by simp [reqs, req]⟩, by simp [evs, ev]⟩
  · exact ⟨Or.inl ⟨by simp [hb], by simp [reqs, req, hb]⟩, by simp [evs, ev]⟩

theorem drop_trm (m : Mgr) (a : Sock) (r : Reason) (h : m.kind a = .connected) : Tr WM m (m.drop a r) := by
  refine ⟨_, rfl, fun b => ?_⟩
  rw [drop_kind]
  by_cases hb : a = b
  · subst hb
    exact ⟨Or.inr ⟨h, by simp, by simp [reqs, req]⟩, by simp [evs, ev]⟩
  · exact ⟨Or.inl ⟨by simp [hb], by simp [reqs, req, hb]⟩, by simp [evs, ev]⟩

theorem disconnect_trm (m : Mgr) (a : Sock) (r : Reason) : Tr WM m (m.disconnect a r) := by
  unfold Mgr.disconnect
  by_cases h : m.isConnected a = true
  · rw [if_pos h]; exact drop_trm m a r ((isConnected_kind m a).1 h)
  · rw [if_neg h]; exact tr_refl wm_refl m

theorem dropAll_tr : ∀ (l : List (Sock × Reason)) (m : Mgr), (∀ p ∈ l, m.kind p.1 ≠ .absent) → Tr WD m (m.dropAll l) := by
  intro l
  induction l with
  | nil => intro m _; exact tr_refl wd_refl m
  | cons x l ih =>
    intro m h
    obtain ⟨a, r⟩ := x
    refine (drop_tr m a r (h _ List.mem_cons_self)).trans wd_trans (ih _ ?_)
    intro p hp
    rw [drop_kind]
    by_cases e : a = p.1
    · simp [e]
    · rw [if_neg e]; exact h p (List.mem_cons_of_mem _ hp)

theorem those_listed {m : Mgr} {f : Peer → Bool} {a : Sock} (h : a ∈ m.those f) : m.kind a ≠ .absent := by
  rw [← contains_kind, AMap.contains_iff]
  unfold Mgr.those at h
  rw [List.mem_map] at h
  obtain ⟨p, hp, rfl⟩ := h
  exact List.mem_map_of_mem (List.mem_of_mem_filter hp)

theorem timedOut_listed {m : Mgr} {ord : List Sock → List Sock} (lg : ∀ l, (ord l).Perm l) :
    ∀ p ∈ m.timedOut ord, m.kind p.1 ≠ .absent := by
  intro p hp
  unfold Mgr.timedOut at hp
  simp only [List.mem_append, List.mem_map] at hp
  rcases hp with (⟨a, ha, rfl⟩ | ⟨a, ha, rfl⟩) | ⟨a, ha, rfl⟩ <;>
    exact those_listed ((lg _).mem_iff.1 ha)

theorem idle_tr {m m' : Mgr} {src : List Cand} (h : m.idle cfg src = .ok m') : Tr WC m m' := by
  rcases idle_parts h with rfl | ⟨m1, h1, e, _, e3⟩
  · exact tr_refl wc_refl _
  · refine (maintain_tr h1).trans wc_trans (tr_same wc_refl (fun a => by simp only [Mgr.kind, e]) e3 ?_)
    intro b o ho
    simp only [List.mem_cons, List.not_mem_nil, or_false] at ho
    rw [ho]; exact ⟨rfl, rfl⟩

/-- The timers close, then open. -/
theorem timer_tr {m m' : Mgr} {ord : List Sock → List Sock} {src : List Cand} (lg : ∀ l, (ord l).Perm l)
    (h : m.timerExpired cfg ord src = .ok m') : ∃ m1, Tr WD m m1 ∧ Tr WC m1 m' := by
  obtain ⟨m1, h1, rfl⟩ := timerExpired_parts h
  refine ⟨_, dropAll_tr _ m (timedOut_listed lg), (idle_tr h1).trans wc_trans ?_⟩
  have c : Tr WC m1 m1.clearDue := tr_same (l := []) wc_refl (fun _ => rfl) (by simp [Mgr.clearDue]) (by simp)
  exact c.trans wc_trans (reconnect_tr _ _)

theorem message_tr {h : List Op} {m m' : Mgr} (hi : Inv cfg tr h m) {a : Sock} {mg : Bool} {height : Nat} {hook : Bool}
    {msg : Msg} (e : m.messageReceived cfg a mg height hook msg = .ok m') : Tr WM m m' := by
  have upd : ∀ {c : Conn} {i : Option Info} {p : Peer} {b : Sock}, m.kind a = .connected → b = a → p = .connected c i →
      ∀ x, kindOf ((m.peers.insert b p).get x) = m.kind x := by
    intro c i p b hk hb hp x
    subst hb hp
    rw [AMap.get_insert]
    by_cases hx : b = x
    · subst hx; rw [if_pos rfl, hk]; rfl
    · rw [if_neg hx]; rfl
  unfold Mgr.messageReceived at e
  cases mg with
  | false =>
    simp only [Bool.not_false, if_true, Res.ok.injEq] at e
    rw [← e]; exact disconnect_trm m a _
  | true =>
    simp only [Bool.not_true, Bool.false_eq_true, if_false] at e
    by_cases hc : m.isConnected a = true
    · simp only [hc, Bool.not_true, Bool.false_eq_true, if_false] at e
      have hk := (isConnected_kind m a).1 hc
      obtain ⟨c, i, hg⟩ := (isConnected_iff m a).1 hc
      have ha := (hi.sess a c i hg).1
      cases msg with
      | version v =>
        simp only [Mgr.receivedMsg, Mgr.receivedVersion, hg] at e
        cases hrf : m.refuse cfg c a v height hook with
        | some r =>
          simp only [hrf, Res.ok.injEq] at e
          rw [← e]; exact drop_trm m a _ hk
        | none =>
          simp only [hrf] at e
          by_cases hp : (cfg.dbg && rawOffset v m.now < -(2 ^ 63 : Int)) = true
          · rw [if_pos hp] at e; simp at e
          rw [if_neg hp] at e
          simp only [Res.ok.injEq] at e
          rw [← e]
          refine tr_same wm_refl (upd hk ha rfl) rfl ?_
          intro b o ho
          unfold reply at ho
          cases hlk : c.link <;> simp [hlk] at ho
          · rcases ho with rfl | rfl | rfl | rfl | rfl <;> exact ⟨rfl, rfl⟩
          · rcases ho with rfl | rfl | rfl | rfl <;> exact ⟨rfl, rfl⟩
      | wtxidRelay =>
        simp only [Mgr.receivedMsg, Res.ok.injEq, Mgr.receivedWtxidRelay, hg] at e
        cases i with
        | none => simp only at e; rw [← e]; exact tr_refl wm_refl m
        | some i =>
          cases hst : i.state with
          | version since =>
            simp only [hst] at e; rw [← e]
            exact tr_same (l := []) wm_refl (upd hk rfl rfl) (by simp) (by simp)
          | verack since => simp only [hst] at e; rw [← e]; exact disconnect_trm m a _
      | verack =>
        simp only [Mgr.receivedMsg, Res.ok.injEq, Mgr.receivedVerack, hg] at e
        cases i with
        | none => simp only at e; rw [← e]; exact tr_refl wm_refl m
        | some i =>
          cases hst : i.state with
          | version since =>
            simp only [hst] at e; rw [← e]
            refine tr_same wm_refl (upd hk rfl rfl) rfl ?_
            intro b o ho
            simp only [List.mem_cons, List.not_mem_nil, or_false] at ho
            rcases ho with rfl | rfl <;> exact ⟨rfl, rfl⟩
          | verack since => simp only [hst] at e; rw [← e]; exact drop_trm m a _ hk
    · simp only [Bool.not_eq_true] at hc
      simp only [hc, Bool.not_false, if_true, Res.ok.injEq] at e
      rw [← e]; exact tr_refl wm_refl m

/-- All other inputs open connections or close one. -/
theorem input_tr {h : List Op} {m m' : Mgr} (hi : Inv cfg tr h m) {op : Op} (i : op.isInput = true) (t : op.isTimer = false)
    (e : m.step cfg op = .ok m') : Tr WC m m' ∨ Tr WM m m' := by
  cases op with
  | init src => exact Or.inl (initialize_tr e)
  | tick t =>
    simp only [Mgr.step, Res.ok.injEq] at e
    rw [← e]
    exact Or.inl (tr_same (l := []) wc_refl (fun _ => rfl) (by simp) (by simp))
  | attempted a => simp [Op.isInput] at i
  | connected a loc link height nonce => simp [Op.isInput] at i
  | disconnected a d src => simp [Op.isInput] at i
  | message a mg height hook msg => exact Or.inr (message_tr hi e)
  | timedOut a => simp only [Mgr.step, Res.ok.injEq] at e; rw [← e]; exact Or.inr (disconnect_trm m a _)
  | misbehaved a => simp only [Mgr.step, Res.ok.injEq] at e; rw [← e]; exact Or.inr (disconnect_trm m a _)
  | cmdConnect a =>
    simp only [Mgr.step, Res.ok.injEq] at e
    rw [← e]
    have c : Tr WC m (m.whitelist a) := tr_same (l := []) wc_refl (fun _ => rfl) (by simp [Mgr.whitelist]) (by simp)
    exact Or.inl (c.trans wc_trans (connect_tr _ a))
  | cmdDisconnect a => simp only [Mgr.step, Res.ok.injEq] at e; rw [← e]; exact Or.inr (disconnect_trm m a _)
  | timer ord src => simp [Op.isTimer] at t


/-! ### New and lost connections -/

theorem connected_trace {m m' : Mgr} {a loc : Sock} {link : Link} {height nonce : Nat}
    (e : m.peerConnected cfg a loc link height nonce = .ok m') :
    ∃ l, m'.out = m.out ++ l ∧ evs a l = [true] ∧
      ((m'.kind a = .connected ∧ reqs a l = []) ∨ (m'.kind a = .disconnecting ∧ reqs a l = [false])) ∧
      ∀ b, a ≠ b → m'.kind b = m.kind b ∧ reqs b l = [] ∧ evs b l = [] := by
  have hne : ∀ b, a ≠ b → m'.kind b = m.kind b := fun b hb => by simp only [Mgr.kind, peerConnected_get_ne e b hb]
  have e1 := (peerConnected_ok e).1
  cases link with
  | outbound =>
    refine ⟨[.version a (ownVersion cfg a nonce height m.now), .timer handshakeTimeout, .evConnected a loc .outbound], ?_, ?_, ?_, ?_⟩
    · rw [e1]; simp [Mgr.emit, Mgr.greet, Mgr.addConn]
    · simp [evs, ev, List.filterMap_cons]
    · left
      refine ⟨?_, by simp [reqs, req]⟩
      rw [e1]; simp [Mgr.kind, Mgr.emit, Mgr.greet, Mgr.addConn, kindOf]
    · intro b hb
      exact ⟨hne b hb, by simp [reqs, req], by simp [evs, ev, hb]⟩
  | inbound =>
    by_cases hl : (m.addConn a loc .inbound).inboundCount ≥ cfg.maxInbound
    · refine ⟨[.disconnect a .connectionLimit, .timer handshakeTimeout, .evConnected a loc .inbound], ?_, ?_, ?_, ?_⟩
      · rw [e1]; simp only [Mgr.emit, Mgr.greet, hl, if_true, Mgr.drop]; simp [Mgr.addConn]
      · simp [evs, ev, List.filterMap_cons]
      · right
        refine ⟨?_, by simp [reqs, req]⟩
        rw [e1]; simp only [Mgr.kind, Mgr.emit, Mgr.greet, hl, if_true, Mgr.drop]; simp [kindOf]
      · intro b hb
        exact ⟨hne b hb, by simp [reqs, req, hb], by simp [evs, ev, hb]⟩
    · refine ⟨[.timer handshakeTimeout, .evConnected a loc .inbound], ?_, ?_, ?_, ?_⟩
      · rw [e1]; simp only [Mgr.emit, Mgr.greet, hl, if_false]; simp [Mgr.addConn]
      · simp [evs, ev, List.filterMap_cons]
      · left
        refine ⟨?_, by simp [reqs, req]⟩
        rw [e1]; simp only [Mgr.kind, Mgr.emit, Mgr.greet, hl, if_false]; simp [Mgr.addConn, kindOf]
      · intro b hb
        exact ⟨hne b hb, by simp [reqs, req], by simp [evs, ev, hb]⟩

/-- The events of a loss. -/
def lossEvs : Kind → List Bool
  | .connected => [false]
  | .disconnecting => [false]
  | _ => []

theorem lostEvent_evs (m : Mgr) (a : Sock) (d : Disc) :
    evs a (m.lostEvent a d) = lossEvs (m.kind a) ∧ ∀ b, reqs b (m.lostEvent a d) = [] ∧ (a ≠ b → evs b (m.lostEvent a d) = []) := by
  unfold Mgr.lostEvent
  by_cases h1 : (m.isDisconnecting a || m.isConnected a) = true
  · rw [if_pos h1]
    refine ⟨?_, fun b => ⟨by simp [reqs, req], fun hb => by simp [evs, ev, hb]⟩⟩
    simp only [Bool.or_eq_true, isDisconnecting_kind, isConnected_kind] at h1
    rcases h1 with h | h <;> rw [h] <;> simp [evs, ev, lossEvs]
  · rw [if_neg h1]
    simp only [Bool.or_eq_true, isDisconnecting_kind, isConnected_kind, not_or] at h1
    have hl : lossEvs (m.kind a) = [] := by
      revert h1
      cases m.kind a <;> simp [lossEvs]
    rw [hl]
    by_cases h2 : (m.isConnecting a && d == .connection) = true
    · rw [if_pos h2]
      exact ⟨by simp [evs, ev], fun b => ⟨by simp [reqs, req], fun _ => by simp [evs, ev]⟩⟩
    · rw [if_neg h2]
      exact ⟨rfl, fun b => ⟨rfl, fun _ => rfl⟩⟩

theorem forget_kind (m : Mgr) (a : Sock) (d : Disc) (b : Sock) : (m.forget a d).kind b = if a = b then .absent else m.kind b := by
  simp only [Mgr.kind, forget_get]
  by_cases h : a = b
  · rw [if_pos h, if_pos h]; rfl
  · rw [if_neg h, if_neg h]

theorem lost_trace {m m' : Mgr} {a : Sock} {d : Disc} {src : List Cand} (e : m.peerDisconnected cfg a d src = .ok m') :
    ∃ l, m'.out = m.out ++ l ∧ evs a l = lossEvs (m.kind a) ∧ WC .absent (reqs a l) (m'.kind a) ∧
      ∀ b, a ≠ b → WC (m.kind b) (reqs b l) (m'.kind b) ∧ evs b l = [] := by
  have key : Tr WC (m.forget a d) m' := by
    rcases peerDisconnected_parts e with ⟨_, h1⟩ | ⟨_, h1⟩
    · obtain ⟨_, e⟩ := persistentDisconnected_parts h1
      rw [e]
      refine tr_same wc_refl (fun _ => rfl) rfl ?_
      intro b o ho
      simp only [List.mem_cons, List.not_mem_nil, or_false] at ho
      rw [ho]; exact ⟨rfl, rfl⟩
    · exact maintain_tr h1
  obtain ⟨l, el, hl⟩ := key
  obtain ⟨v1, v2⟩ := lostEvent_evs m a d
  refine ⟨m.lostEvent a d ++ l, by rw [el]; simp [Mgr.forget], ?_, ?_, ?_⟩
  · rw [evs_append, v1, (hl a).2, List.append_nil]
  · have := (hl a).1
    rw [forget_kind, if_pos rfl] at this
    rw [reqs_append, (v2 a).1, List.nil_append]
    exact this
  · intro b hb
    have := (hl b).1
    rw [forget_kind, if_neg hb] at this
    rw [reqs_append, (v2 b).1, List.nil_append, evs_append, (v2 b).2 hb, (hl b).2]
    exact ⟨this, rfl⟩

/-! ### The invariant -/

def AllD (w : List Bool) : Prop := ∀ b ∈ w, b = false

/-- What is known of one address: `reg`: it has a socket; `dial`: which is being dialed; `w`: the pending requests on it; `pol`: we
are in a round of deliveries; `opn`: the last event on it is that it is connected. -/
def Good (reg dial : Bool) (w : List Bool) (pol opn : Bool) : Kind → Prop
  | .absent => reg = false ∧ dial = false ∧ AllD w ∧ opn = false
  | .connecting => opn = false ∧ ((reg = false ∧ dial = false ∧ ∃ u, AllD u ∧ w = u ++ [true]) ∨ (reg = true ∧ dial = true ∧ w = []))
  | .connected => reg = true ∧ dial = false ∧ AllD w ∧ opn = true
  | .disconnecting => reg = true ∧ AllD w ∧ w ≠ [] ∧ (dial = true → pol = false) ∧ (opn = !dial)

theorem AllD.nil : AllD [] := by simp [AllD]

theorem AllD.append {u w : List Bool} (h : AllD u) (h' : AllD w) : AllD (u ++ w) := by
  intro b hb
  rcases List.mem_append.1 hb with x | x
  · exact h b x
  · exact h' b x

theorem AllD.tail {b : Bool} {w : List Bool} (h : AllD (b :: w)) : AllD w := fun c hc => h c (List.mem_cons_of_mem _ hc)

/-- Opening connections, none of them while there is a socket. -/
theorem good_wc {reg dial pol opn : Bool} {w v : List Bool} {k k' : Kind} (g : Good reg dial w pol opn k) (h : WC k v k')
    (nr : true ∈ v → reg = false) : Good reg dial (w ++ v) pol opn k' := by
  rcases h with ⟨rfl, rfl⟩ | ⟨h1, rfl, rfl⟩
  · rwa [List.append_nil]
  · have hr := nr List.mem_cons_self
    rcases h1 with rfl | rfl
    · exact ⟨g.2.2.2, Or.inl ⟨g.1, g.2.1, w, g.2.2.1, rfl⟩⟩
    · rw [g.1] at hr; simp at hr

theorem good_wm {reg dial pol opn : Bool} {w v : List Bool} {k k' : Kind} (g : Good reg dial w pol opn k) (h : WM k v k') :
    Good reg dial (w ++ v) pol opn k' := by
  rcases h with ⟨rfl, rfl⟩ | ⟨rfl, rfl, rfl⟩
  · rwa [List.append_nil]
  · obtain ⟨g1, g2, g3, g4⟩ := g
    exact ⟨g1, g3.append (by simp [AllD]), by simp, by simp [g2], by simp [g2, g4]⟩

/-- Closing, when nothing is pending, before the requests are processed. -/
theorem good_wd {reg dial pol opn : Bool} {v : List Bool} {k k' : Kind} (g : Good reg dial [] pol opn k) (h : WD k v k') :
    Good reg dial v false opn k' := by
  rcases h with ⟨rfl, rfl⟩ | ⟨h1, rfl, h3, h4⟩
  · cases k' with
    | absent => exact g
    | connecting => exact g
    | connected => exact g
    | disconnecting => exact absurd rfl g.2.2.1
  · cases k with
    | absent => exact absurd rfl h1
    | connecting =>
      rcases g.2 with ⟨_, _, u, _, hu⟩ | ⟨g1, g2, _⟩
      · simp at hu
      · exact ⟨g1, h4, h3, fun _ => rfl, by simp [g.1, g2]⟩
    | connected => exact ⟨g.1, h4, h3, fun _ => rfl, by simp [g.2.1, g.2.2.2]⟩
    | disconnecting => exact absurd rfl g.2.2.1

theorem good_pol {reg dial pol opn : Bool} {w : List Bool} {k : Kind} (g : Good reg dial w pol opn k) :
    Good reg dial w false opn k := by
  cases k with
  | absent => exact g
  | connecting => exact g
  | connected => exact g
  | disconnecting => exact ⟨g.1, g.2.1, g.2.2.1, fun _ => rfl, g.2.2.2.2⟩

theorem good_poll {reg dial pol opn : Bool} {k : Kind} (g : Good reg dial [] pol opn k) : Good reg dial [] true opn k := by
  cases k with
  | absent => exact g
  | connecting => exact g
  | connected => exact g
  | disconnecting => exact absurd rfl g.2.2.1

/-- The socket is gone, and so is the entry; then connections are opened. -/
theorem good_lost {reg dial pol opn opn' : Bool} {w v : List Bool} {k k' : Kind} (g : Good reg dial w pol opn k) (hr : reg = true)
    (h : WC .absent v k') (ho : opn' = false) : Good false false (w ++ v) pol opn' k' := by
  have hw : AllD w := by
    cases k with
    | absent => exact g.2.2.1
    | connecting =>
      rcases g.2 with ⟨g1, _⟩ | ⟨_, _, rfl⟩
      · rw [g1] at hr; simp at hr
      · exact AllD.nil
    | connected => exact g.2.2.1
    | disconnecting => exact g.2.1
  exact good_wc (k := .absent) ⟨rfl, rfl, hw, ho⟩ h (fun _ => rfl)

/-! ### The last event -/

/-- The last event on `a` is that it is connected. -/
def isOpen (a : Sock) (l : List Out) : Bool := (evs a l).getLast? == some true

theorem isOpen_none {a : Sock} {l l' : List Out} (h : evs a l' = []) : isOpen a (l ++ l') = isOpen a l := by
  unfold isOpen; rw [evs_append, h, List.append_nil]

theorem isOpen_one {a : Sock} {l l' : List Out} {b : Bool} (h : evs a l' = [b]) : isOpen a (l ++ l') = b := by
  unfold isOpen; rw [evs_append, h]; cases b <;> simp

/-! ### The queue -/

structure NetInv (n : Net) : Prop where
  pos : n.pos ≤ n.m.out.length
  good : ∀ a, Good (n.reg.contains a) (decide (a ∈ n.dialing)) (reqs a n.queue) n.polling (isOpen a n.m.out) (n.m.kind a)

theorem queue_append {n n' : Net} {l : List Out} (hp : n.pos ≤ n.m.out.length) (e : n'.m.out = n.m.out ++ l) (ep : n'.pos = n.pos) :
    n'.queue = n.queue ++ l := by
  unfold Net.queue
  rw [e, ep, List.drop_append_of_le_length hp]

theorem queue_tail {n : Net} {o : Out} {q : List Out} (h : n.queue = o :: q) :
    n.m.out.drop (n.pos + 1) = q ∧ n.pos + 1 ≤ n.m.out.length := by
  unfold Net.queue at h
  constructor
  · rw [← List.tail_drop, h]; rfl
  · have : (n.m.out.drop n.pos).length = (o :: q).length := by rw [h]
    rw [List.length_drop, List.length_cons] at this
    omega

theorem queue_next {n n' : Net} {l : List Out} {o : Out} {q : List Out} (h : n.queue = o :: q) (e : n'.m.out = n.m.out ++ l)
    (ep : n'.pos = n.pos + 1) : n'.queue = q ++ l ∧ n'.pos ≤ n'.m.out.length := by
  obtain ⟨h1, h2⟩ := queue_tail h
  constructor
  · unfold Net.queue
    rw [e, ep, List.drop_append_of_le_length h2, h1]
  · rw [ep, e, List.length_append]; omega

theorem mem_added {m m' : Mgr} {l : List Out} (e : m'.out = m.out ++ l) (o : Out) : o ∈ added m m' ↔ o ∈ l := by
  unfold added; rw [e, List.drop_left]

theorem contains_insert_ne {V : Type} (l : AMap Sock V) {a b : Sock} (v : V) (h : a ≠ b) : (l.insert a v).contains b = l.contains b := by
  unfold AMap.contains; rw [AMap.get_insert_ne l v h]

theorem contains_insert_self {V : Type} (l : AMap Sock V) (a : Sock) (v : V) : (l.insert a v).contains a = true := by
  unfold AMap.contains; rw [AMap.get_insert_self]; rfl

theorem contains_erase_ne {V : Type} (l : AMap Sock V) {a b : Sock} (h : a ≠ b) : (l.erase a).contains b = l.contains b := by
  unfold AMap.contains; rw [AMap.get_erase_ne l h]

theorem contains_erase_self {V : Type} (l : AMap Sock V) (a : Sock) : (l.erase a).contains a = false := by
  unfold AMap.contains; rw [AMap.get_erase_self]; rfl

theorem mem_dial_ne {l : List Sock} {a b : Sock} (h : a ≠ b) : b ∈ l.filter (· ≠ a) ↔ b ∈ l := by
  simp only [List.mem_filter, decide_eq_true_eq, and_iff_left_iff_imp]
  exact fun _ => fun e => h e.symm

theorem not_mem_dial (l : List Sock) (a : Sock) : a ∉ l.filter (· ≠ a) := by simp

/-- Loss of a socket. -/
theorem netInv_lost {n n' : Net} (hi : NetInv n) {a : Sock} {d : Disc} {src : List Cand} (r : n.reg.contains a = true)
    (e : n.m.peerDisconnected cfg a d src = .ok n'.m) (er : n'.reg = n.reg.erase a) (ed : n'.dialing = n.dialing.filter (· ≠ a))
    (ep : n'.polling = n.polling) (x : NoRedial n n') {q : List Out} (hq : ∀ b, ∃ u, reqs b n.queue = u ++ reqs b q ∧ (a ≠ b → u = []))
    (hqq : ∀ l, n'.m.out = n.m.out ++ l → n'.queue = q ++ l) (hp : n'.pos ≤ n'.m.out.length) : NetInv n' := by
  obtain ⟨l, el, v1, v2, v3⟩ := lost_trace e
  refine ⟨hp, fun b => ?_⟩
  have g := hi.good b
  obtain ⟨u, hu, hu'⟩ := hq b
  rw [hqq l el, reqs_append, er, ed, ep, el]
  by_cases hb : a = b
  · subst hb
    rw [contains_erase_self, decide_eq_false (not_mem_dial _ _)]
    have hopen : isOpen a (n.m.out ++ l) = false := by
      cases hk : n.m.kind a with
      | absent =>
        rw [hk] at v1 g
        rw [isOpen_none v1]; exact g.2.2.2
      | connecting =>
        rw [hk] at v1 g
        rw [isOpen_none v1]; exact g.1
      | connected => rw [hk] at v1; exact isOpen_one v1
      | disconnecting => rw [hk] at v1; exact isOpen_one v1
    have g' := good_lost g r v2 hopen
    have hw : AllD (reqs a q) := by
      have hall : AllD (reqs a n.queue) := by
        cases hk : n.m.kind a with
        | absent => rw [hk] at g; exact g.2.2.1
        | connecting =>
          rw [hk] at g
          rcases g.2 with ⟨g1, _⟩ | ⟨_, _, g3⟩
          · rw [g1] at r; simp at r
          · rw [g3]; exact AllD.nil
        | connected => rw [hk] at g; exact g.2.2.1
        | disconnecting => rw [hk] at g; exact g.2.1
      rw [hu] at hall
      exact fun c hc => hall c (List.mem_append_right _ hc)
    exact good_wc (k := .absent) ⟨rfl, rfl, hw, hopen⟩ v2 (fun _ => rfl)
  · obtain ⟨w1, w2⟩ := v3 b hb
    rw [contains_erase_ne _ hb, isOpen_none w2]
    have hm : decide (b ∈ n.dialing.filter (· ≠ a)) = decide (b ∈ n.dialing) := by simp only [mem_dial_ne hb]
    rw [hm]
    rw [hu, hu' hb, List.nil_append] at g
    refine good_wc g w1 ?_
    intro ht
    have := x b ((mem_added el _).2 (true_mem_reqs.1 ht))
    rwa [er, contains_erase_ne _ hb] at this

theorem netInv_step {h : List Op} {n n' : Net} (ri : Inv cfg tr h n.m) (hi : NetInv n) (s : Net.Step cfg n n') (x : NoRedial n n') :
    NetInv n' := by
  cases s with
  | @input m' op i t e =>
    have opens : ∀ {R : Kind → List Bool → Kind → Prop}, Tr R n.m m' →
        (∀ {reg dial pol opn : Bool} {w v : List Bool} {k k' : Kind}, Good reg dial w pol opn k → R k v k' →
          (true ∈ v → reg = false) → Good reg dial (w ++ v) pol opn k') → NetInv { n with m := m' } := by
      intro R ⟨l, el, hl⟩ hg
      refine ⟨?_, fun a => ?_⟩
      · have := hi.pos
        simp only [el, List.length_append]; omega
      · rw [queue_append (n' := { n with m := m' }) hi.pos el rfl, reqs_append]
        simp only [el]
        rw [isOpen_none (hl a).2]
        exact hg (hi.good a) (hl a).1 (fun ht => x a ((mem_added el _).2 (true_mem_reqs.1 ht)))
    rcases input_tr ri i t e with h1 | h1
    · exact opens h1 good_wc
    · exact opens h1 (fun g w _ => good_wm g w)
  | @timer m' ord src p q lg e =>
    obtain ⟨m1, ⟨l1, el1, h1⟩, ⟨l2, el2, h2⟩⟩ := timer_tr lg e
    have el : m'.out = n.m.out ++ (l1 ++ l2) := by rw [el2, el1, List.append_assoc]
    refine ⟨?_, fun a => ?_⟩
    · have := hi.pos
      simp only [el, List.length_append]; omega
    · rw [queue_append (n' := { n with m := m', polling := false }) hi.pos el rfl, q, List.nil_append, reqs_append]
      simp only [el]
      rw [isOpen_none (by rw [evs_append, (h1 a).2, (h2 a).2]; rfl)]
      have g := hi.good a
      rw [q] at g
      have g1 := good_wd g (h1 a).1
      refine good_wc g1 (h2 a).1 ?_
      intro ht
      exact x a ((mem_added el _).2 (List.mem_append_right _ (true_mem_reqs.1 ht)))
  | @accept m' a loc height nonce p f u e =>
    obtain ⟨l, el, v1, v2, v3⟩ := connected_trace e
    refine ⟨?_, fun b => ?_⟩
    · have := hi.pos
      simp only [Net.register, el, List.length_append]; omega
    · have g := hi.good b
      rw [queue_append (n' := n.register a .inbound m') hi.pos el rfl, reqs_append]
      simp only [Net.register, el]
      by_cases hb : a = b
      · subst hb
        rw [contains_insert_self, isOpen_one v1]
        have hk : n.m.kind a = .absent := by
          cases hk : n.m.kind a with
          | absent => rfl
          | connecting =>
            rw [hk] at g
            rcases g.2 with ⟨_, _, w, _, hw⟩ | ⟨g1, _⟩
            · exact absurd (true_mem_reqs.1 (by rw [hw]; simp)) u
            · rw [g1] at f; simp at f
          | connected => rw [hk] at g; rw [g.1] at f; simp at f
          | disconnecting => rw [hk] at g; rw [g.1] at f; simp at f
        rw [hk] at g
        obtain ⟨_, g2, g3, _⟩ := g
        have hd : decide (a ∈ (n.register a .inbound m').dialing) = false := g2
        change Good true (decide (a ∈ (n.register a .inbound m').dialing)) _ _ _ _
        rw [hd]
        rcases v2 with ⟨k, hr⟩ | ⟨k, hr⟩
        · rw [k, hr, List.append_nil]; exact ⟨rfl, rfl, g3, rfl⟩
        · rw [k, hr]; exact ⟨rfl, g3.append (by simp [AllD]), by simp, by simp, rfl⟩
      · obtain ⟨w1, w2, w3⟩ := v3 b hb
        rw [contains_insert_ne _ _ hb, isOpen_none w3, w2, List.append_nil, w1]
        exact g
  | @writable m' a loc height nonce p d e =>
    obtain ⟨l, el, v1, v2, v3⟩ := connected_trace e
    refine ⟨?_, fun b => ?_⟩
    · have := hi.pos
      simp only [el, List.length_append]; omega
    · have g := hi.good b
      rw [queue_append (n' := { n with m := m', dialing := n.dialing.filter (· ≠ a) }) hi.pos el rfl, reqs_append]
      simp only [el]
      by_cases hb : a = b
      · subst hb
        rw [decide_eq_false (not_mem_dial _ _), isOpen_one v1]
        rw [decide_eq_true d, p] at g
        have hk : n.reg.contains a = true ∧ reqs a n.queue = [] := by
          cases hk : n.m.kind a with
          | absent => rw [hk] at g; have := g.2.1; simp at this
          | connecting =>
            rw [hk] at g
            rcases g.2 with ⟨_, g2, _⟩ | ⟨g1, _, g3⟩
            · simp at g2
            · exact ⟨g1, g3⟩
          | connected => rw [hk] at g; have := g.2.1; simp at this
          | disconnecting => rw [hk] at g; have := g.2.2.2.1 rfl; simp at this
        rw [hk.1, hk.2, p, List.nil_append]
        rcases v2 with ⟨k, hr⟩ | ⟨k, hr⟩
        · rw [k, hr]; exact ⟨rfl, rfl, AllD.nil, rfl⟩
        · rw [k, hr]; exact ⟨rfl, by simp [AllD], by simp, by simp, rfl⟩
      · obtain ⟨w1, w2, w3⟩ := v3 b hb
        have hm : decide (b ∈ n.dialing.filter (· ≠ a)) = decide (b ∈ n.dialing) := by simp only [mem_dial_ne hb]
        rw [hm, isOpen_none w3, w2, List.append_nil, w1]
        exact g
  | @closed m' a d src r e =>
    refine netInv_lost (n' := n.unregister a m') (q := n.queue) hi r e rfl rfl rfl x
      (fun b => ⟨[], rfl, fun _ => rfl⟩) (fun l el => queue_append hi.pos el rfl) ?_
    obtain ⟨l, el, _⟩ := lost_trace e
    have := hi.pos
    simp only [Net.unregister, el, List.length_append]; omega
  | process p => exact ⟨hi.pos, fun a => good_pol (hi.good a)⟩
  | poll p q =>
    refine ⟨hi.pos, fun a => ?_⟩
    have g := hi.good a
    rw [q] at g
    have hq : Net.queue { n with polling := true } = [] := q
    rw [hq]
    exact good_poll g
  | @dialed m' a q p hq e =>
    have em : m' = n.m := by
      simp only [Mgr.step, Mgr.peerAttempted] at e
      by_cases h1 : (cfg.dbg && !(n.m.isConnecting a || n.m.isInbound a)) = true
      · rw [if_pos h1] at e; simp at e
      · rw [if_neg h1] at e
        simp only [Res.ok.injEq] at e
        exact e.symm
    subst em
    obtain ⟨h1, h2⟩ := queue_tail hq
    refine ⟨h2, fun b => ?_⟩
    have g := hi.good b
    have e1 : Net.queue { n.register a .outbound n.m with dialing := sadd n.dialing a, pos := n.pos + 1 } = q := h1
    rw [e1]
    simp only [Net.register]
    rw [hq] at g
    by_cases hb : a = b
    · subst hb
      have hr : reqs a (.connect a :: q) = true :: reqs a q := by simp [reqs, req]
      rw [hr] at g
      have hk : n.m.kind a = .connecting ∧ isOpen a n.m.out = false ∧ reqs a q = [] := by
        cases hk : n.m.kind a with
        | absent => rw [hk] at g; have := g.2.2.1 true List.mem_cons_self; simp at this
        | connecting =>
          rw [hk] at g
          refine ⟨rfl, g.1, ?_⟩
          rcases g.2 with ⟨_, _, w, hw, ew⟩ | ⟨_, _, g3⟩
          · cases w with
            | nil => simpa using ew
            | cons c w =>
              simp only [List.cons_append, List.cons.injEq] at ew
              have := hw c List.mem_cons_self
              rw [← ew.1] at this; simp at this
          · simp at g3
        | connected => rw [hk] at g; have := g.2.2.1 true List.mem_cons_self; simp at this
        | disconnecting => rw [hk] at g; have := g.2.1 true List.mem_cons_self; simp at this
      rw [contains_insert_self, decide_eq_true ((mem_sadd _ _ _).2 (Or.inl rfl)), hk.1, hk.2.1, hk.2.2]
      exact ⟨rfl, Or.inr ⟨rfl, rfl, rfl⟩⟩
    · have hr : reqs b (.connect a :: q) = reqs b q := by simp [reqs, req, hb]
      have hm : decide (b ∈ sadd n.dialing a) = decide (b ∈ n.dialing) := by
        simp only [mem_sadd, decide_eq_decide]
        exact ⟨fun h => h.resolve_left (fun e => hb e.symm), Or.inr⟩
      rw [contains_insert_ne _ _ hb, hm, ← hr]
      exact g
  | @failed m' a q src p hq e =>
    obtain ⟨l, el, v1, v2, v3⟩ := lost_trace e
    obtain ⟨q1, q2⟩ := queue_next (n' := { n with m := m', pos := n.pos + 1 }) hq el rfl
    refine ⟨q2, fun b => ?_⟩
    have g := hi.good b
    rw [q1, reqs_append]
    simp only [el]
    rw [hq] at g
    by_cases hb : a = b
    · subst hb
      have hr : reqs a (.connect a :: q) = true :: reqs a q := by simp [reqs, req]
      rw [hr] at g
      cases hk : n.m.kind a with
      | absent => rw [hk] at g; have := g.2.2.1 true List.mem_cons_self; simp at this
      | connecting =>
        rw [hk] at g v1
        rcases g.2 with ⟨g1, g2, w, hw, ew⟩ | ⟨_, _, g3⟩
        · have hn : reqs a q = [] := by
            cases w with
            | nil => simpa using ew
            | cons c w =>
              simp only [List.cons_append, List.cons.injEq] at ew
              have := hw c List.mem_cons_self
              rw [← ew.1] at this; simp at this
          rw [hn, isOpen_none v1, g1, g2]
          exact good_wc (k := .absent) ⟨rfl, rfl, AllD.nil, g.1⟩ v2 (fun _ => rfl)
        · simp at g3
      | connected => rw [hk] at g; have := g.2.2.1 true List.mem_cons_self; simp at this
      | disconnecting => rw [hk] at g; have := g.2.1 true List.mem_cons_self; simp at this
    · obtain ⟨w1, w2⟩ := v3 b hb
      have hr : reqs b (.connect a :: q) = reqs b q := by simp [reqs, req, hb]
      rw [isOpen_none w2]
      rw [hr] at g
      exact good_wc g w1 (fun ht => x b ((mem_added el _).2 (true_mem_reqs.1 ht)))
  | @disconnect m' a r q src p hq h e =>
    have hpos : (n.unregister a m').next.pos ≤ (n.unregister a m').next.m.out.length := by
      obtain ⟨l, el, _⟩ := lost_trace e
      exact (queue_next (n' := (n.unregister a m').next) hq el rfl).2
    refine netInv_lost (n' := (n.unregister a m').next) (q := q) hi h e rfl rfl rfl x ?_
      (fun l el => (queue_next hq el rfl).1) hpos
    intro b
    rw [hq]
    by_cases hb : a = b
    · exact ⟨[false], by simp [reqs, req, hb], fun c => absurd hb c⟩
    · exact ⟨[], by simp [reqs, req, hb], fun _ => rfl⟩
  | @ignored a r q p hq h =>
    obtain ⟨h1, h2⟩ := queue_tail hq
    refine ⟨h2, fun b => ?_⟩
    have g := hi.good b
    have e1 : n.next.queue = q := h1
    rw [e1]
    simp only [Net.next]
    rw [hq] at g
    by_cases hb : a = b
    · subst hb
      have hr : reqs a (.disconnect a r :: q) = false :: reqs a q := by simp [reqs, req]
      rw [hr, h] at g
      rw [h]
      cases hk : n.m.kind a with
      | absent => rw [hk] at g; exact ⟨g.1, g.2.1, g.2.2.1.tail, g.2.2.2⟩
      | connecting =>
        rw [hk] at g
        rcases g.2 with ⟨g1, g2, w, hw, ew⟩ | ⟨g1, _⟩
        · cases w with
          | nil => simp at ew
          | cons c w =>
            simp only [List.cons_append, List.cons.injEq] at ew
            exact ⟨g.1, Or.inl ⟨g1, g2, w, hw.tail, ew.2⟩⟩
        · simp at g1
      | connected => rw [hk] at g; have := g.1; simp at this
      | disconnecting => rw [hk] at g; have := g.1; simp at this
    · have hr : reqs b (.disconnect a r :: q) = reqs b q := by simp [reqs, req, hb]
      rw [hr] at g
      exact g
  | @other o q p hq ho =>
    obtain ⟨h1, h2⟩ := queue_tail hq
    refine ⟨h2, fun b => ?_⟩
    have g := hi.good b
    have e1 : n.next.queue = q := h1
    have hr : reqs b (o :: q) = reqs b q := by
      cases o <;> first | rfl | simp [Out.isOther] at ho
    rw [hq, hr] at g
    rw [e1]
    exact g

/-- The peer manager in the reactor has a history. -/
theorem step_run {h : List Op} {n n' : Net} (r : Run cfg tr h n.m) (s : Net.Step cfg n n') : ∃ h', Run cfg tr h' n'.m := by
  cases s with
  | @input m' op i t e =>
    have lg : op.Legal := by
      cases op <;> trivial
    exact ⟨_, .step r lg e⟩
  | @timer m' ord src p q lg e => exact ⟨_, Run.step (op := .timer ord src) r lg e⟩
  | @accept m' a loc height nonce p f u e => exact ⟨_, Run.step (op := .connected a loc .inbound height nonce) r trivial e⟩
  | @writable m' a loc height nonce p d e => exact ⟨_, Run.step (op := .connected a loc .outbound height nonce) r trivial e⟩
  | @closed m' a d src r' e => exact ⟨_, Run.step (op := .disconnected a d src) r trivial e⟩
  | process p => exact ⟨h, r⟩
  | poll p q => exact ⟨h, r⟩
  | @dialed m' a q p hq e => exact ⟨_, Run.step (op := .attempted a) r trivial e⟩
  | @failed m' a q src p hq e => exact ⟨_, Run.step (op := .disconnected a .dial src) r trivial e⟩
  | @disconnect m' a rs q src p hq h e => exact ⟨_, Run.step (op := .disconnected a (.machine rs) src) r trivial e⟩
  | ignored p hq h' => exact ⟨h, r⟩
  | other p hq ho => exact ⟨h, r⟩

theorem reach_run {n : Net} (r : Net.Reach cfg tr n) : ∃ h, Run cfg tr h n.m := by
  induction r with
  | start => exact ⟨[], .start⟩
  | step _ s ih => obtain ⟨h, ih⟩ := ih; exact step_run ih s

theorem Net.Clean.reach {n : Net} (r : Net.Clean cfg tr n) : Net.Reach cfg tr n := by
  induction r with
  | start => exact .start
  | step _ s _ ih => exact .step ih s

theorem clean_inv {n : Net} (r : Net.Clean cfg tr n) : NetInv n := by
  induction r with
  | start => exact ⟨Nat.le_refl _, fun a => ⟨rfl, rfl, AllD.nil, rfl⟩⟩
  | step r s x ih =>
    obtain ⟨h, hr⟩ := reach_run r.reach
    exact netInv_step (run_inv hr) ih s x

end Verif.Peer
