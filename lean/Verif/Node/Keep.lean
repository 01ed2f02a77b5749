import Verif.Inv.Keep
import Verif.Node.Answers

/-!
# What the node keeps: blocks and transactions
-/

set_option autoImplicit false

namespace Verif.Node
open Verif.Tx (Block Transaction)
open Verif.Chain (Header)

variable {cfg : Cfg} {U : Header → Prop} {fail : Bool} {t0 : Chain.State} {g : Header} {h : Hist} {n n' : Fsm}
variable {P : Hist → Fsm → Input → Fsm → List Out → Prop}

/-! ## Specification -/

/-- The blocks the user asked for, with repetitions. -/
def userBlocks : Hist → List Nat
  | [] => []
  | (.requestBlock x, _) :: h => x :: userBlocks h
  | _ :: h => userBlocks h

/-- The transactions the user submitted, with repetitions. -/
def userTxs : Hist → List Transaction
  | [] => []
  | (.submit t, _) :: h => t :: userTxs h
  | _ :: h => userTxs h

/-! ## Lemmas -/

theorem requestBlocks_some : ∀ (ms : List (Nat × Nat)) (m : Cbf.Mgr), ∃ o, (m.requestBlocks ms).out = m.out ++ o ∧ foundC o = [] ∧ (requested o).Sublist (ms.map (·.2))
  | [], m => ⟨[], by simp [Cbf.Mgr.requestBlocks], rfl, .slnil⟩
  | (a, b) :: ms, m => by
    unfold Cbf.Mgr.requestBlocks
    split
    · obtain ⟨o, h1, h2, h3⟩ := requestBlocks_some ms m
      exact ⟨o, h1, h2, h3.cons _⟩
    · obtain ⟨o, h1, h2, h3⟩ := requestBlocks_some ms ({ m with pending := a :: m.pending }.emit [.getBlock b])
      refine ⟨.getBlock b :: o, ?_, h2, ?_⟩
      · rw [h1]; simp [Cbf.Mgr.emit]
      · exact h3.cons_cons b

/-- The filter manager asks only for the blocks of filters that it reports as matching. -/
theorem cbf_asks (p : Cbf.Params) (e : Cbf.Env) (t : Cbf.Tree) {m m' : Cbf.Mgr} {op : Cbf.Op} (h : m.step p e t op = .ok m') :
    ∃ o, m'.out = m.out ++ o ∧ (requested o).Sublist ((foundC o).map (·.2)) := by
  by_cases hb : busy op = false
  · obtain ⟨o, h1, h2, -, h4⟩ := (step_idle p e t h hb).out
    exact ⟨o, h1, by rw [h4, h2]; exact .slnil⟩
  · cases op with
    | rescan a b w =>
      obtain ⟨o, ms, h1, h2, -, h4, -⟩ := step_rescan p e t h
      exact ⟨o, h1, by rw [h4, h2]⟩
    | blockProcessed k height =>
      rcases step_processed p e t h with ⟨-, ⟨o, h1, h2, -, h4⟩, -⟩ | ⟨-, rfl⟩
      · exact ⟨o, h1, by rw [h4, h2]; exact .slnil⟩
      · exact ⟨[], by simp, .slnil⟩
    | cfilter peer ft block f =>
      have hcc := Cbf.receivedCFilter_cases p e t m peer ft block f
      simp only [Cbf.Mgr.step] at h
      generalize m.receivedCFilter p e t peer ft block f = g at h hcc
      have after : ∀ (m1 : Cbf.Mgr) (o : List Cbf.Out) (ms : List (Nat × Nat)), m1.out = m.out ++ o → foundC o = ms → requested o = [] →
          ∃ o, (m1.afterFilter ms).out = m.out ++ o ∧ (requested o).Sublist ((foundC o).map (·.2)) := by
        intro m1 o ms k1 k2 k4
        obtain ⟨o', h1, h2, h3⟩ := requestBlocks_some ms m1
        unfold Cbf.Mgr.afterFilter
        simp only
        split
        · refine ⟨o ++ (o' ++ [.event (.scanned (m1.requestBlocks ms).rescan.current)]), by simp [Cbf.Mgr.emit, h1, k1], ?_⟩
          rw [requested_append, requested_append, foundC_append, foundC_append, k4, k2, h2]
          simpa [requested, foundC] using h3
        · refine ⟨o ++ o', by simp [h1, k1], ?_⟩
          rw [requested_append, foundC_append, k4, k2, h2]
          simpa using h3
      cases hcc with
      | ignored hi => cases h; exact ⟨[], by simp, .slnil⟩
      | invalid hh h0 h1 h2 h3 => cases h; exact ⟨[_], rfl, .slnil⟩
      | unsolicited hh h0 h1 h2 h3 => cases h; exact after _ [_] [] rfl rfl rfl
      | scanned hh c r ms es n h0 h1 h2 h3 h4 h5 =>
        obtain ⟨p1, -, p3⟩ := process_found p h5
        cases h
        refine after _ (.event (.filterReceived peer block hh f) :: es.map .event) ms rfl ?_ ?_
        · rw [show ∀ (a : Cbf.Out) l, foundC (a :: l) = foundC [a] ++ foundC l from fun a l => by rw [← foundC_append]; rfl, p1]; rfl
        · rw [show ∀ (a : Cbf.Out) l, requested (a :: l) = requested [a] ++ requested l from fun a l => by rw [← requested_append]; rfl, p3]; rfl
      | panicked m' hh hp => simp at h
    | blockDisconnected height => cases h; exact ⟨[], by simp, .slnil⟩
    | headersImported reverted =>
      have sy : ∀ {m1 : Cbf.Mgr} {o1 : List Cbf.Out}, m1.out = m.out ++ o1 → requested o1 = [] → m1.sync p e t = (.ok m' : Res Unit Cbf.Mgr) →
          ∃ o, m'.out = m.out ++ o ∧ (requested o).Sublist ((foundC o).map (·.2)) := by
        intro m1 o1 k1 k2 k3
        obtain ⟨o, h1, h2, -, h4⟩ := (Idle.quiet (Cbf.quiet_sync p e t m1 m' k3)).out
        refine ⟨o1 ++ o, by rw [h1, k1, List.append_assoc], ?_⟩
        rw [requested_append, k2, h4]
        exact List.nil_sublist _
      simp only [Cbf.Mgr.step] at h
      split at h
      · obtain ⟨fork, -, h⟩ := Res.bind_eq_ok.1 h
        obtain ⟨m1, h1, h⟩ := Res.bind_eq_ok.1 h
        have k : ∃ o1, m1.out = m.out ++ o1 ∧ requested o1 = [] := by
          unfold Cbf.Mgr.rollback at h1
          split at h1
          · cases h1; exact ⟨[], by simp, rfl⟩
          · obtain ⟨r, -, h1⟩ := Res.bind_eq_ok.1 h1
            simp only at h1
            split at h1
            · split at h1
              · split at h1 <;> (cases h1; exact ⟨[], by simp, rfl⟩)
              · cases h1; exact ⟨[], by simp, rfl⟩
            · cases h1; exact ⟨[.event .error], by simp [Cbf.Mgr.emit], rfl⟩
        obtain ⟨o1, k1, k2⟩ := k
        exact sy k1 k2 h
      · exact sy (o1 := []) (by simp) rfl h
    | _ => exact absurd rfl hb

/-- What is added: the blocks `as`, those of the matches put out, and `k` transactions. -/
def Adds (as : List Nat) (k : Nat) (n n' : Fsm) : Prop :=
  ∃ d, n'.log = n.log ++ d ∧ n'.inv.held ≤ n.inv.held + as.length + (found d).length ∧ n'.inv.ledger ≤ n.inv.ledger + k ∧
    ∀ x, n'.inv.Keeps x → n.inv.Keeps x ∨ x ∈ as ∨ x ∈ (found d).map (·.2)

theorem Adds.refl (n : Fsm) : Adds [] 0 n n := ⟨[], by simp, by simp, by simp, fun _ h => .inl h⟩

theorem Adds.same {n n' : Fsm} (h1 : n'.log = n.log) (h2 : n'.inv = n.inv) : Adds [] 0 n n' :=
  ⟨[], by simp [h1], by simp [h2], by simp [h2], fun _ h => .inl (h2 ▸ h)⟩

theorem Adds.trans {as bs : List Nat} {k l : Nat} {n1 n2 n3 : Fsm} (a : Adds as k n1 n2) (b : Adds bs l n2 n3) : Adds (as ++ bs) (k + l) n1 n3 := by
  obtain ⟨d1, a1, a2, a3, a4⟩ := a
  obtain ⟨d2, b1, b2, b3, b4⟩ := b
  refine ⟨d1 ++ d2, by rw [b1, a1, List.append_assoc], ?_, by omega, ?_⟩
  · rw [found_append, List.length_append, List.length_append]; omega
  · intro x hx
    rw [found_append, List.map_append, List.mem_append, List.mem_append]
    rcases b4 x hx with h | h | h
    · rcases a4 x h with h | h | h <;> tauto
    · tauto
    · tauto

theorem found_other {l : List Out} (hl : ∀ o ∈ l, ∀ x, o ≠ .cbf x) : found l = [] := by
  rw [found, List.filterMap_eq_nil_iff]
  intro o ho
  cases o with
  | cbf x => exact absurd rfl (hl _ ho x)
  | _ => rfl

/-- The block an operation asks for. -/
def asked : Inv.Op → List Nat
  | .getBlock x => [x]
  | _ => []

theorem adds_callInv (p : Parts cfg U fail t0 n) {op : Inv.Op} (l : op.Legal) (e : n.callInv cfg op = .ok n') : Adds (asked op) op.submits n n' := by
  obtain ⟨hi, ri⟩ := p.inv
  obtain ⟨m, hs, rfl⟩ := callInv_ok e
  obtain ⟨k1, k2⟩ := Inv.step_keeps hs
  have fo : found (m.out.map Out.inv) = [] := by
    refine found_other fun o ho x hx => ?_
    subst hx
    obtain ⟨y, -, hy⟩ := List.mem_map.1 ho
    cases hy
  have la : (asked op).length = op.asks := by cases op <;> rfl
  refine ⟨_, rfl, by rw [fo, la]; exact k1, k2, fun x hx => ?_⟩
  rcases Inv.step_kept ri l hs hx with h | rfl
  · exact .inl h
  · exact .inr (.inl (by simp [asked]))

theorem adds_callSync {op : Sync.Op} (e : n.callSync cfg op = .ok n') : Adds [] 0 n n' := by
  obtain ⟨m, t, hs, rfl⟩ := callSync_ok e
  have fo : found (m.out.map Out.sync) = [] := by
    refine found_other fun o ho x hx => ?_
    subst hx
    obtain ⟨y, -, hy⟩ := List.mem_map.1 ho
    cases hy
  exact ⟨_, rfl, by rw [fo]; simp, by simp, fun x hx => .inl hx⟩

theorem adds_requestBlocks : ∀ (l : List Nat) {n n' : Fsm}, Parts cfg U fail t0 n → Fsm.requestBlocks cfg l n = .ok n' → Adds l 0 n n' ∧ found n'.log = found n.log
  | [], n, n', _, e => by cases e; exact ⟨.refl n, rfl⟩
  | k :: l, n, n', p, e => by
    simp only [Fsm.requestBlocks, Res.bind_eq_ok] at e
    obtain ⟨n1, h1, h2⟩ := e
    obtain ⟨i1, i2⟩ := adds_requestBlocks l (p.callInv (op := .getBlock k) trivial h1) h2
    have a := adds_callInv p (op := .getBlock k) trivial h1
    refine ⟨a.trans i1, ?_⟩
    rw [i2]
    obtain ⟨m, hs, rfl⟩ := callInv_ok h1
    rw [found_append, found_other (l := m.out.map Out.inv), List.append_nil]
    intro o ho x hx
    subst hx
    obtain ⟨y, -, hy⟩ := List.mem_map.1 ho
    cases hy

theorem adds_callCbf (p : Parts cfg U fail t0 n) {env : Cbf.Env} {b : Option Block} {op : Cbf.Op} (e : n.callCbf cfg env b op = .ok n') : Adds [] 0 n n' := by
  obtain ⟨c, hc, hr⟩ := callCbf_ok e
  obtain ⟨lc, hlc⟩ := p.cbf
  obtain ⟨o, ho, hs⟩ := cbf_asks _ _ _ hc
  have hd : c.out.drop n.cbf.out.length = o := by rw [ho, List.drop_left]
  rw [hd] at hr
  have p' : Parts cfg U fail t0 { n with cbf := c, qCbf := n.qCbf ++ o.filterMap (label b), log := n.log ++ o.filterMap (label b) } :=
    ⟨p.sync, p.inv, ⟨_, .step env _ op hlc hc⟩⟩
  obtain ⟨⟨d, a1, a2, a3, a4⟩, f⟩ := adds_requestBlocks _ p' hr
  have fd : found d = [] := by
    rw [a1, found_append] at f
    exact List.append_right_eq_self.1 f
  refine ⟨o.filterMap (label b) ++ d, by rw [a1, List.append_assoc], ?_, a3, ?_⟩
  · rw [found_append, fd, List.append_nil, found_label]
    have := hs.length_le
    rw [List.length_map] at this
    rw [fd] at a2
    simp only [List.length_nil] at a2 ⊢
    omega
  · intro x hx
    rw [found_append, fd, List.append_nil, found_label]
    rcases a4 x hx with h | h | h
    · exact .inl h
    · exact .inr (.inr (hs.subset h))
    · rw [fd] at h; simp at h

theorem adds_deliverSync (p : Parts cfg U fail t0 n) {e : Env} {o : Sync.Out} (hs : n.deliverSync cfg e o = .ok n') : Adds [] 0 n n' := by
  cases o with
  | disconnected height hd => simp only [Fsm.deliverSync] at hs; exact adds_callCbf p hs
  | imported a b c d r =>
    simp only [Fsm.deliverSync, Res.bind_eq_ok] at hs
    obtain ⟨n1, h1, h2⟩ := hs
    exact (adds_callCbf p h1).trans (adds_callInv (p.callCbf h1) (op := .reverted _) trivial h2)
  | _ => cases hs; exact .refl n

theorem adds_deliverInv (p : Parts cfg U fail t0 n) {e : Env} {o : Inv.Out} (hs : n.deliverInv cfg e o = .ok n') : Adds [] 0 n n' := by
  cases o with
  | processed b height fees => simp only [Fsm.deliverInv] at hs; exact adds_callCbf p hs
  | confirmed => simp only [Fsm.deliverInv] at hs; exact adds_callCbf p hs
  | reverted => simp only [Fsm.deliverInv] at hs; exact adds_callCbf p hs
  | _ => cases hs; exact .refl n

/-- What an input adds. -/
theorem adds_step (p : Parts cfg U fail t0 n) {e : Env} {i : Input} (l : Legal U fail e i) (hs : n.step cfg e i = .ok n') :
    Adds (userBlocks [(i, [])]) (userTxs [(i, [])]).length n n' := by
  have none : ∀ p ∈ ([] : List (Header × Chain.Env)), U p.1 ∧ Chain.EnvOk fail p.2 := by simp
  cases i with
  | init =>
    simp only [Fsm.step, Res.bind_eq_ok] at hs
    obtain ⟨n1, h1, h2⟩ := hs
    exact (adds_callSync h1).trans (adds_callCbf (p.callSync (by exact ⟨l.sync, none⟩) h1) h2)
  | negotiated =>
    simp only [Fsm.step, Res.bind_eq_ok] at hs
    obtain ⟨n1, h1, n2, h2, h3⟩ := hs
    exact ((adds_callCbf p h1).trans (adds_callInv (p.callCbf h1) (op := .negotiated _ _ _ _) trivial h2)).trans (adds_callSync h3)
  | disconnected =>
    simp only [Fsm.step, Res.bind_eq_ok] at hs
    obtain ⟨n1, h1, n2, h2, h3⟩ := hs
    exact ((adds_callCbf p h1).trans (adds_callInv (p.callCbf h1) (op := .disconnected _) trivial h2)).trans (adds_callSync h3)
  | headers => simp only [Fsm.step] at hs; exact adds_callSync hs
  | getheaders => simp only [Fsm.step] at hs; exact adds_callSync hs
  | invs => simp only [Fsm.step] at hs; exact adds_callSync hs
  | block b => simp only [Fsm.step] at hs; exact adds_callInv p (op := .block _ _) trivial hs
  | getdata => simp only [Fsm.step] at hs; exact adds_callInv p (op := .getdata _ _) trivial hs
  | cfheaders => simp only [Fsm.step] at hs; exact adds_callCbf p hs
  | getcfheaders => simp only [Fsm.step] at hs; exact adds_callCbf p hs
  | cfilter => simp only [Fsm.step] at hs; exact adds_callCbf p hs
  | timer =>
    simp only [Fsm.step, Res.bind_eq_ok] at hs
    obtain ⟨n1, h1, n2, h2, h3⟩ := hs
    exact ((adds_callInv p (op := .timer _ _ _) l.inv h1).trans (adds_callSync h2)).trans
      (adds_callCbf ((p.callInv (op := .timer _ _ _) l.inv h1).callSync (by exact ⟨l.sync, none⟩) h2) h3)
  | importHeaders => simp only [Fsm.step] at hs; exact adds_callSync hs
  | requestFilters => simp only [Fsm.step] at hs; exact adds_callCbf p hs
  | requestBlock => simp only [Fsm.step] at hs; exact adds_callInv p (op := .getBlock _) trivial hs
  | submit t =>
    simp only [Fsm.step, Res.bind_eq_ok] at hs
    obtain ⟨n1, h1, h2⟩ := hs
    exact (adds_callCbf p h1).trans (adds_callInv (p.callCbf h1) (op := .announce _) trivial h2)
  | rescan => simp only [Fsm.step] at hs; exact adds_callCbf p hs
  | watch => simp only [Fsm.step] at hs; exact adds_callCbf p hs
  | next =>
    simp only [Fsm.step, Fsm.next] at hs
    split at hs
    · rename_i q _
      exact Adds.trans (as := []) (k := 0) (n2 := { n with qSync := q }) (.same rfl rfl) (adds_deliverSync (n := { n with qSync := q }) ⟨p.sync, p.inv, p.cbf⟩ hs)
    · split at hs
      · rename_i q _
        exact Adds.trans (as := []) (k := 0) (n2 := { n with qInv := q }) (.same rfl rfl) (adds_deliverInv (n := { n with qInv := q }) ⟨p.sync, p.inv, p.cbf⟩ hs)
      · cases hs; exact .same rfl rfl

theorem userBlocks_cons (i : Input) (o : List Out) (h : Hist) : userBlocks ((i, o) :: h) = userBlocks [(i, [])] ++ userBlocks h := by cases i <;> rfl

theorem userTxs_cons (i : Input) (o : List Out) (h : Hist) : userTxs ((i, o) :: h) = userTxs [(i, [])] ++ userTxs h := by cases i <;> rfl

theorem run_adds (r : Run cfg U fail P t0 h n) : n.inv.held ≤ (userBlocks h).length + (found (outputs h)).length ∧ n.inv.ledger ≤ (userTxs h).length ∧
    ∀ x, n.inv.Keeps x → x ∈ userBlocks h ∨ x ∈ (found (outputs h)).map (·.2) := by
  induction r with
  | start f c => exact ⟨Nat.le_refl _, Nat.le_refl _, by rintro x (⟨t, ht⟩ | ⟨k, b, hb, -⟩) <;> cases ‹_›⟩
  | @step h n n' i outs e r l hs ho p ih =>
    obtain ⟨d, a1, a2, a3, a4⟩ := adds_step (run_parts r) l hs
    rw [ho] at a1
    have hd := List.append_cancel_left a1
    subst hd
    obtain ⟨i1, i2, i3⟩ := ih
    rw [userBlocks_cons, userTxs_cons, outputs_cons, found_append]
    simp only [List.length_append, List.map_append, List.mem_append]
    refine ⟨by omega, by omega, fun x hx => ?_⟩
    rcases a4 x hx with h | h | h
    · rcases i3 x h with h | h <;> tauto
    · tauto
    · tauto

end Verif.Node
