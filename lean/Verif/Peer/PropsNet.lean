import Verif.Peer.NetInv
import Mathlib.Data.List.Induction

/-!
# Properties of the peer manager with the reactor

C46 (the peers listed are those with a connection) and C71 (the events say which connections are open).
-/

set_option autoImplicit false

namespace Verif.Peer
open Verif.Addr (Sock Ip Domain NetAddr Source has isLocal domainOf sadd)

variable {cfg : Config} {tr : List Ip}

/-- By the events `l`, a connection with `a` is open: it was reported connected and not reported disconnected since. -/
def Open (a : Sock) (l : List Out) : Prop := ∃ l1 loc link l2, l = l1 ++ .evConnected a loc link :: l2 ∧ ∀ d, .evDisconnected a d ∉ l2

theorem isOpen_snoc (a : Sock) (l : List Out) (o : Out) : isOpen a (l ++ [o]) = (ev a o).getD (isOpen a l) := by
  cases h : ev a o with
  | none => rw [isOpen_none (by simp [evs, h])]; rfl
  | some b => rw [isOpen_one (b := b) (by simp [evs, h])]; rfl

theorem open_iff (a : Sock) (l : List Out) : Open a l ↔ isOpen a l = true := by
  induction l using List.reverseRecOn with
  | nil =>
    constructor
    · rintro ⟨l1, _, _, l2, e, _⟩; simp at e
    · intro h; simp [isOpen, evs] at h
  | append_singleton l o ih =>
    rw [isOpen_snoc]
    constructor
    · rintro ⟨l1, loc, link, l2, e, hn⟩
      rcases List.eq_nil_or_concat l2 with rfl | ⟨l2', o', rfl⟩
      · have := List.append_inj_right' e rfl
        simp only [List.cons.injEq, and_true] at this
        rw [this]; simp [ev]
      · rw [List.concat_eq_append] at hn e
        have e' : l ++ [o] = (l1 ++ .evConnected a loc link :: l2') ++ [o'] := by rw [e]; simp
        have e1 := List.append_inj_left' e' rfl
        have e2 := List.append_inj_right' e' rfl
        simp only [List.cons.injEq, and_true] at e2
        have hl : isOpen a l = true := ih.1 ⟨l1, loc, link, l2', e1, fun d hd => hn d (List.mem_append_left _ hd)⟩
        rw [hl, e2]
        cases hv : ev a o' with
        | none => rfl
        | some b =>
          cases b with
          | true => rfl
          | false =>
            exfalso
            cases o' <;> simp only [ev] at hv <;> try simp at hv
            · subst hv
              exact hn _ (List.mem_append_right _ List.mem_cons_self)
    · intro h
      cases hv : ev a o with
      | none =>
        rw [hv] at h
        obtain ⟨l1, loc, link, l2, e, hn⟩ := ih.2 h
        refine ⟨l1, loc, link, l2 ++ [o], by rw [e]; simp, ?_⟩
        intro d hd
        rcases List.mem_append.1 hd with x | x
        · exact hn d x
        · simp only [List.mem_cons, List.not_mem_nil, or_false] at x
          rw [← x] at hv; simp [ev] at hv
      | some b =>
        rw [hv] at h
        simp only [Option.getD_some] at h
        subst h
        cases o <;> simp only [ev] at hv <;> try simp at hv
        · subst hv
          exact ⟨l, _, _, [], rfl, by simp⟩

/-! ### C46: the list of peers -/

/-- C46.  A peer is listed exactly while it has a socket or a connection to it has been asked for.  Partial: in executions in which no
connection is asked for with an address whose socket is still open. -/
theorem C46_listed_partial {n : Net} (r : Net.Clean cfg tr n) (a : Sock) :
    n.m.peers.contains a = true ↔ n.reg.contains a = true ∨ .connect a ∈ n.queue := by
  have g := (clean_inv r).good a
  rw [contains_kind, ← true_mem_reqs]
  cases hk : n.m.kind a with
  | absent =>
    rw [hk] at g
    simp only [ne_eq, not_true_eq_false, g.1, Bool.false_eq_true, false_or, false_iff]
    intro h
    have := g.2.2.1 _ h
    simp at this
  | connecting =>
    rw [hk] at g
    rcases g.2 with ⟨_, _, u, _, e⟩ | ⟨h, _⟩
    · simp [e]
    · simp [h]
  | connected => rw [hk] at g; simp [g.1]
  | disconnecting => rw [hk] at g; simp [g.1]

/-- C46.  When all requests have been processed, the connected peers are those with an established connection, the connecting ones are
those being dialed, and there are no others. -/
theorem C46_settled_partial {n : Net} (r : Net.Clean cfg tr n) (q : n.queue = []) (a : Sock) :
    (n.m.isConnected a = true ↔ n.reg.contains a = true ∧ a ∉ n.dialing) ∧
    (n.m.isConnecting a = true ↔ n.reg.contains a = true ∧ a ∈ n.dialing) ∧
    (n.m.peers.contains a = true ↔ n.reg.contains a = true) := by
  have g := (clean_inv r).good a
  rw [isConnected_kind, isConnecting_kind, contains_kind]
  rw [q] at g
  cases hk : n.m.kind a with
  | absent => rw [hk] at g; simp [g.1]
  | connecting =>
    rw [hk] at g
    rcases g.2 with ⟨_, _, u, _, e⟩ | ⟨h1, h2, _⟩
    · simp [reqs] at e
    · simp [h1, of_decide_eq_true h2]
  | connected => rw [hk] at g; simp [g.1, of_decide_eq_false g.2.1]
  | disconnecting => rw [hk] at g; exact absurd rfl g.2.2.1

/-! ### C71: the events -/

/-- C71.  A connection is open by the events exactly if it is established.  Partial: as for C46. -/
theorem C71_open_partial {n : Net} (r : Net.Clean cfg tr n) (a : Sock) :
    Open a n.m.out ↔ n.reg.contains a = true ∧ a ∉ n.dialing := by
  have g := (clean_inv r).good a
  rw [open_iff]
  cases hk : n.m.kind a with
  | absent => rw [hk] at g; simp [g.1, g.2.2.2]
  | connecting =>
    rw [hk] at g
    rcases g.2 with ⟨h1, _⟩ | ⟨h1, h2, _⟩
    · simp [g.1, h1]
    · simp [g.1, h1, of_decide_eq_true h2]
  | connected => rw [hk] at g; simp [g.1, of_decide_eq_false g.2.1, g.2.2.2]
  | disconnecting => rw [hk] at g; simp [g.1, g.2.2.2.2]

/-- Outputs only grow. -/
theorem step_out {h : List Op} {n n' : Net} (ri : Inv cfg tr h n.m) (s : Net.Step cfg n n') : n'.m.out = n.m.out ++ added n.m n'.m := by
  have key : ∀ {m' : Mgr}, (∃ l, m'.out = n.m.out ++ l) → m'.out = n.m.out ++ added n.m m' := by
    rintro m' ⟨l, e⟩
    unfold added
    rw [e, List.drop_left]
  have same : n.m.out = n.m.out ++ added n.m n.m := key ⟨[], by simp⟩
  cases s with
  | input i t e =>
    rcases input_tr ri i t e with ⟨l, el, _⟩ | ⟨l, el, _⟩ <;> exact key ⟨l, el⟩
  | timer p q lg e =>
    obtain ⟨m1, ⟨l1, el1, _⟩, ⟨l2, el2, _⟩⟩ := timer_tr lg e
    exact key ⟨l1 ++ l2, by rw [el2, el1, List.append_assoc]⟩
  | accept p f u e => obtain ⟨l, el, _⟩ := connected_trace e; exact key ⟨l, el⟩
  | writable p d e => obtain ⟨l, el, _⟩ := connected_trace e; exact key ⟨l, el⟩
  | closed r e => obtain ⟨l, el, _⟩ := lost_trace e; exact key ⟨l, el⟩
  | process p => exact same
  | poll p q => exact same
  | @dialed m' a q p hq e =>
    simp only [Mgr.step, Mgr.peerAttempted] at e
    by_cases h1 : (cfg.dbg && !(n.m.isConnecting a || n.m.isInbound a)) = true
    · rw [if_pos h1] at e; simp at e
    · rw [if_neg h1] at e
      simp only [Res.ok.injEq] at e
      exact key ⟨[], by simp [Net.register, ← e]⟩
  | failed p hq e => obtain ⟨l, el, _⟩ := lost_trace e; exact key ⟨l, el⟩
  | disconnect p hq h e => obtain ⟨l, el, _⟩ := lost_trace e; exact key ⟨l, el⟩
  | ignored p hq h => exact same
  | other p hq ho => exact same

/-- C71.  When an established connection ends, it is reported. -/
theorem C71_reported_partial {n n' : Net} (r : Net.Clean cfg tr n) (s : Net.Step cfg n n') (x : NoRedial n n') {a : Sock}
    (h : n.reg.contains a = true ∧ a ∉ n.dialing) (h' : n'.reg.contains a = false) : ∃ d, .evDisconnected a d ∈ added n.m n'.m := by
  obtain ⟨hist, hr⟩ := reach_run r.reach
  have e := step_out (run_inv hr) s
  obtain ⟨l1, loc, link, l2, e1, hn⟩ := (C71_open_partial r a).2 h
  by_contra hc
  have : Open a n'.m.out := by
    refine ⟨l1, loc, link, l2 ++ added n.m n'.m, by rw [e, e1]; simp, ?_⟩
    intro d hd
    rcases List.mem_append.1 hd with y | y
    · exact hn d y
    · exact hc ⟨d, y⟩
  have := ((C71_open_partial (r.step s x) a).1 this).1
  rw [h'] at this; simp at this

/-- C71.  A connection is reported only if none was open, and then it is. -/
theorem C71_connected_partial {n n' : Net} (r : Net.Clean cfg tr n) (s : Net.Step cfg n n') (x : NoRedial n n') {a loc : Sock}
    {link : Link} (h : .evConnected a loc link ∈ added n.m n'.m) : ¬ Open a n.m.out ∧ Open a n'.m.out := by
  obtain ⟨hist, hr⟩ := reach_run r.reach
  have none_ : ∀ {m' : Mgr} {l : List Out}, m'.out = n.m.out ++ l → evs a l = [] → ¬ .evConnected a loc link ∈ added n.m m' := by
    intro m' l el hl hm
    rw [mem_added el] at hm
    have := List.filterMap_eq_nil_iff.1 hl _ hm
    simp [ev] at this
  have lost : ∀ {m' : Mgr} {b : Sock} {d : Disc} {src : List Cand}, n.m.peerDisconnected cfg b d src = .ok m' →
      ¬ .evConnected a loc link ∈ added n.m m' := by
    intro m' b d src e hm
    obtain ⟨l, el, v1, _, v3⟩ := lost_trace e
    by_cases hb : b = a
    · subst hb
      rw [mem_added el] at hm
      have ht : true ∈ evs b l := List.mem_filterMap.2 ⟨_, hm, by simp [ev]⟩
      rw [v1] at ht
      revert ht
      cases n.m.kind b <;> simp [lossEvs]
    · exact none_ el (v3 a hb).2 hm
  have new : ∀ {m' : Mgr} {b loc' : Sock} {l' : Link} {height nonce : Nat}, n.m.peerConnected cfg b loc' l' height nonce = .ok m' →
      .evConnected a loc link ∈ added n.m m' → b = a ∧ isOpen a m'.out = true := by
    intro m' b loc' l' height nonce e hm
    obtain ⟨l, el, v1, _, v3⟩ := connected_trace e
    by_cases hb : b = a
    · subst hb
      exact ⟨rfl, by rw [el]; exact isOpen_one v1⟩
    · exact absurd hm (none_ el (v3 a hb).2.2)
  have same : ¬ .evConnected a loc link ∈ added n.m n.m := none_ (l := []) (by simp) rfl
  cases s with
  | input i t e =>
    rcases input_tr (run_inv hr) i t e with ⟨l, el, hl⟩ | ⟨l, el, hl⟩ <;> exact absurd h (none_ el (hl a).2)
  | timer p q lg e =>
    obtain ⟨m1, ⟨l1, el1, h1⟩, ⟨l2, el2, h2⟩⟩ := timer_tr lg e
    exact absurd h (none_ (l := l1 ++ l2) (by rw [el2, el1, List.append_assoc]) (by rw [evs_append, (h1 a).2, (h2 a).2]; rfl))
  | accept p f u e =>
    obtain ⟨rfl, ho⟩ := new e h
    refine ⟨fun hc => ?_, (open_iff _ _).2 ho⟩
    have := ((C71_open_partial r _).1 hc).1
    rw [f] at this; simp at this
  | writable p d e =>
    obtain ⟨rfl, ho⟩ := new e h
    exact ⟨fun hc => ((C71_open_partial r _).1 hc).2 d, (open_iff _ _).2 ho⟩
  | closed r' e => exact absurd h (lost e)
  | process p => exact absurd h same
  | poll p q => exact absurd h same
  | @dialed m' b q p hq e =>
    simp only [Mgr.step, Mgr.peerAttempted] at e
    by_cases h1 : (cfg.dbg && !(n.m.isConnecting b || n.m.isInbound b)) = true
    · rw [if_pos h1] at e; simp at e
    · rw [if_neg h1] at e
      simp only [Res.ok.injEq] at e
      exact absurd h (none_ (l := []) (by simp [Net.register, ← e]) rfl)
  | failed p hq e => exact absurd h (lost e)
  | disconnect p hq h' e => exact absurd h (lost e)
  | ignored p hq h' => exact absurd h same
  | other p hq ho => exact absurd h same

/-- C71.  A disconnection is reported only of an open connection, or of an attempt that timed out (being dialed, and given up). -/
theorem C71_disconnected_partial {n n' : Net} (r : Net.Clean cfg tr n) (s : Net.Step cfg n n') {a : Sock} {d : Disc}
    (h : .evDisconnected a d ∈ added n.m n'.m) :
    n'.reg.contains a = false ∧ (Open a n.m.out ∨ (a ∈ n.dialing ∧ n.m.isDisconnecting a = true)) := by
  obtain ⟨hist, hr⟩ := reach_run r.reach
  have g := (clean_inv r).good a
  have none_ : ∀ {m' : Mgr} {l : List Out}, m'.out = n.m.out ++ l → evs a l = [] → ¬ .evDisconnected a d ∈ added n.m m' := by
    intro m' l el hl hm
    rw [mem_added el] at hm
    have := List.filterMap_eq_nil_iff.1 hl _ hm
    simp [ev] at this
  have new : ∀ {m' : Mgr} {b loc' : Sock} {l' : Link} {height nonce : Nat}, n.m.peerConnected cfg b loc' l' height nonce = .ok m' →
      ¬ .evDisconnected a d ∈ added n.m m' := by
    intro m' b loc' l' height nonce e hm
    obtain ⟨l, el, v1, _, v3⟩ := connected_trace e
    by_cases hb : b = a
    · subst hb
      rw [mem_added el] at hm
      have ht : false ∈ evs b l := List.mem_filterMap.2 ⟨_, hm, by simp [ev]⟩
      rw [v1] at ht; simp at ht
    · exact none_ el (v3 a hb).2.2 hm
  have lost : ∀ {m' : Mgr} {b : Sock} {d' : Disc} {src : List Cand}, n.m.peerDisconnected cfg b d' src = .ok m' →
      .evDisconnected a d ∈ added n.m m' → b = a ∧ (Open a n.m.out ∨ (a ∈ n.dialing ∧ n.m.isDisconnecting a = true)) := by
    intro m' b d' src e hm
    obtain ⟨l, el, v1, _, v3⟩ := lost_trace e
    by_cases hb : b = a
    · subst hb
      refine ⟨rfl, ?_⟩
      rw [mem_added el] at hm
      have ht : false ∈ evs b l := List.mem_filterMap.2 ⟨_, hm, by simp [ev]⟩
      rw [v1] at ht
      cases hk : n.m.kind b with
      | absent => rw [hk] at ht; simp [lossEvs] at ht
      | connecting => rw [hk] at ht; simp [lossEvs] at ht
      | connected => rw [hk] at g; exact Or.inl ((open_iff _ _).2 g.2.2.2)
      | disconnecting =>
        rw [hk] at g
        by_cases hd : b ∈ n.dialing
        · exact Or.inr ⟨hd, (isDisconnecting_kind _ _).2 hk⟩
        · left
          rw [open_iff, g.2.2.2.2, decide_eq_false hd]; rfl
    · exact absurd hm (none_ el (v3 a hb).2)
  have same : ¬ .evDisconnected a d ∈ added n.m n.m := none_ (l := []) (by simp) rfl
  cases s with
  | input i t e =>
    rcases input_tr (run_inv hr) i t e with ⟨l, el, hl⟩ | ⟨l, el, hl⟩ <;> exact absurd h (none_ el (hl a).2)
  | timer p q lg e =>
    obtain ⟨m1, ⟨l1, el1, h1⟩, ⟨l2, el2, h2⟩⟩ := timer_tr lg e
    exact absurd h (none_ (l := l1 ++ l2) (by rw [el2, el1, List.append_assoc]) (by rw [evs_append, (h1 a).2, (h2 a).2]; rfl))
  | accept p f u e => exact absurd h (new e)
  | writable p d e => exact absurd h (new e)
  | closed r' e =>
    obtain ⟨rfl, ho⟩ := lost e h
    exact ⟨contains_erase_self _ _, ho⟩
  | process p => exact absurd h same
  | poll p q => exact absurd h same
  | @dialed m' b q p hq e =>
    simp only [Mgr.step, Mgr.peerAttempted] at e
    by_cases h1 : (cfg.dbg && !(n.m.isConnecting b || n.m.isInbound b)) = true
    · rw [if_pos h1] at e; simp at e
    · rw [if_neg h1] at e
      simp only [Res.ok.injEq] at e
      exact absurd h (none_ (l := []) (by simp [Net.register, ← e]) rfl)
  | @failed m' b q src p hq e =>
    obtain ⟨rfl, ho⟩ := lost e h
    refine ⟨?_, ho⟩
    rw [hq] at g
    have hr : true ∈ reqs b (.connect b :: q) := true_mem_reqs.2 List.mem_cons_self
    cases hk : n.m.kind b with
    | absent => rw [hk] at g; exact g.1
    | connecting =>
      rw [hk] at g
      rcases g.2 with ⟨g1, _⟩ | ⟨_, _, g3⟩
      · exact g1
      · rw [g3] at hr; simp at hr
    | connected => rw [hk] at g; have := g.2.2.1 _ hr; simp at this
    | disconnecting => rw [hk] at g; have := g.2.1 _ hr; simp at this
  | disconnect p hq h' e =>
    obtain ⟨rfl, ho⟩ := lost e h
    exact ⟨contains_erase_self _ _, ho⟩
  | ignored p hq h' => exact absurd h same
  | other p hq ho => exact absurd h same

/-! ### No assertion fails -/

theorem maintainLoop_ok (below : Bool) (delta : Nat) :
    ∀ (fuel : Nat) (m : Mgr) (src : List Cand) (set : List Sock),
      (∀ c ∈ src, ∀ a, c.1.sock = some a → m.isConnected a = false) → ∃ m', Mgr.maintainLoop cfg below delta fuel m src set = .ok m' := by
  intro fuel
  induction fuel with
  | zero => intro m src set _; exact ⟨m, rfl⟩
  | succ k ih =>
    intro m src set hc
    simp only [Mgr.maintainLoop]
    by_cases h1 : set.length < delta
    · rw [if_pos h1]
      cases hch : choose cfg below src with
      | none => exact ⟨m, rfl⟩
      | some x =>
        obtain ⟨c, src'⟩ := x
        have hp := choose_perm hch
        have hsub : ∀ d ∈ src', d ∈ src := fun d hd => hp.mem_iff.2 (List.mem_cons_of_mem _ hd)
        cases hs : c.1.sock with
        | none => simp only [hs]; exact ih m src' set (fun d hd => hc d (hsub d hd))
        | some a =>
          have hn := hc c (hp.mem_iff.2 List.mem_cons_self) a hs
          simp only [hs, hn, Bool.and_false, Bool.false_eq_true, if_false]
          have h2 : ∀ d ∈ src', ∀ b, d.1.sock = some b → (m.connect cfg a).2.isConnected b = false := by
            intro d hd b hb
            rw [connect_isConnected]
            exact hc d (hsub d hd) b hb
          by_cases h3 : (m.connect cfg a).1 = true
          · rw [if_pos h3]; exact ih _ src' _ h2
          · rw [if_neg h3]; exact ih _ src' _ h2
    · rw [if_neg h1]; exact ⟨m, rfl⟩

theorem maintain_ok {m : Mgr} {src : List Cand} (hc : ∀ c ∈ src, ∀ a, c.1.sock = some a → m.isConnected a = false) :
    ∃ m', m.maintain cfg src = .ok m' := by
  unfold Mgr.maintain
  by_cases h : cfg.persistent ≠ []
  · rw [if_pos h]; exact ⟨m, rfl⟩
  · rw [if_neg h]; exact maintainLoop_ok _ _ _ _ _ _ hc

/-- C71.  What the reactor reports on connections never trips an assertion of a debug build, provided the retry times are in order and
the address book offers no connected peer. -/
theorem C71_no_panic_partial {n : Net} (r : Net.Clean cfg tr n) (hb : cfg.retryMin ≤ cfg.retryMax) {a : Sock} {src : List Cand}
    (hc : ∀ c ∈ src, ∀ b, c.1.sock = some b → n.m.isConnected b = false) :
    (∀ loc height nonce, n.reg.contains a = false → .connect a ∉ n.queue →
      ∃ m', n.m.step cfg (.connected a loc .inbound height nonce) = .ok m') ∧
    (∀ loc height nonce, n.polling = true → a ∈ n.dialing → ∃ m', n.m.step cfg (.connected a loc .outbound height nonce) = .ok m') ∧
    (∀ q, n.queue = .connect a :: q → ∃ m', n.m.step cfg (.attempted a) = .ok m') ∧
    (∀ d, n.reg.contains a = true ∨ (∃ q, n.queue = .connect a :: q) → ∃ m', n.m.step cfg (.disconnected a d src) = .ok m') := by
  have g := (clean_inv r).good a
  refine ⟨?_, ?_, ?_, ?_⟩
  · intro loc height nonce hr hq
    have hn : n.m.isConnected a = false := by
      cases hh : n.m.isConnected a with
      | false => rfl
      | true =>
        have hk := (isConnected_kind _ _).1 hh
        rw [hk] at g; rw [g.1] at hr; simp at hr
    simp only [Mgr.step, Mgr.peerConnected, hn]
    simp
  · intro loc height nonce hp hd
    have hk : n.m.kind a = .connecting := by
      rw [decide_eq_true hd, hp] at g
      cases hk : n.m.kind a with
      | absent => rw [hk] at g; have := g.2.1; simp at this
      | connecting => rfl
      | connected => rw [hk] at g; have := g.2.1; simp at this
      | disconnecting => rw [hk] at g; have := g.2.2.2.1 rfl; simp at this
    have h1 := (isConnecting_kind _ _).2 hk
    have h2 : n.m.isConnected a = false := by
      cases hh : n.m.isConnected a with
      | false => rfl
      | true => rw [(isConnected_kind _ _).1 hh] at hk; simp at hk
    simp only [Mgr.step, Mgr.peerConnected, h1, h2]
    simp
  · intro q hq
    have hr : true ∈ reqs a n.queue := true_mem_reqs.2 (by rw [hq]; exact List.mem_cons_self)
    have hk : n.m.kind a = .connecting := by
      cases hk : n.m.kind a with
      | absent => rw [hk] at g; have := g.2.2.1 _ hr; simp at this
      | connecting => rfl
      | connected => rw [hk] at g; have := g.2.2.1 _ hr; simp at this
      | disconnecting => rw [hk] at g; have := g.2.1 _ hr; simp at this
    have h1 := (isConnecting_kind _ _).2 hk
    simp only [Mgr.step, Mgr.peerAttempted, h1]
    simp
  · intro d h
    have hl : n.m.peers.contains a = true := by
      rw [C46_listed_partial r]
      rcases h with h | ⟨q, h⟩
      · exact Or.inl h
      · exact Or.inr (by rw [h]; exact List.mem_cons_self)
    simp only [Mgr.step, Mgr.peerDisconnected, hl, Bool.not_true, Bool.and_false, Bool.false_eq_true, if_false]
    by_cases hp : cfg.persistent.contains a = true
    · rw [if_pos hp]
      unfold Mgr.persistentDisconnected
      rw [if_neg (by omega)]
      exact ⟨_, rfl⟩
    · rw [if_neg hp]
      refine maintain_ok ?_
      intro c hcs b hb'
      have hnb := hc c hcs b hb'
      cases hh : (n.m.forget a d).isConnected b with
      | false => rfl
      | true =>
        rw [isConnected_kind, forget_kind] at hh
        by_cases e : a = b
        · rw [if_pos e] at hh; simp at hh
        · rw [if_neg e, ← isConnected_kind, hnb] at hh; simp at hh

end Verif.Peer
