import Verif.Node.Scan

/-!
# The state machine: what is watched
-/

set_option autoImplicit false

namespace Verif.Node
open Verif.Tx (Block Transaction)
open Verif.Chain (Header)
open Verif.Cbf (Op Mgr Params Tree Quiet)

theorem mem_erase {m : AMap Nat (List Nat)} {k : Nat} {x : Nat × List Nat} (h : x ∈ m.erase k) : x ∈ m := (List.mem_filter.1 h).1

theorem mem_erase_of {m : AMap Nat (List Nat)} {k : Nat} {x : Nat × List Nat} (h : x ∈ m) (hk : x.1 ≠ k) : x ∈ m.erase k :=
  List.mem_filter.2 ⟨h, by simpa using hk⟩

theorem mem_insert {m : AMap Nat (List Nat)} {k : Nat} {v : List Nat} {x : Nat × List Nat} (h : x ∈ m.insert k v) : x = (k, v) ∨ x ∈ m :=
  (List.mem_cons.1 h).imp id mem_erase

theorem mem_insert_of (k : Nat) (v : List Nat) {m : AMap Nat (List Nat)} {a : Nat} {s : List Nat} (h : (a, s) ∈ m) : ∃ s, (a, s) ∈ m.insert k v := by
  by_cases hk : a = k
  · exact ⟨v, hk ▸ List.mem_cons_self ..⟩
  · exact ⟨s, List.mem_cons_of_mem _ (mem_erase_of h hk)⟩

/-- What a call of the filter manager does to the transactions watched. -/
def txsAfter : Op → AMap Nat (List Nat) → AMap Nat (List Nat)
  | .txConfirmed k, l => l.erase k
  | .txReverted k s, l | .watchTransaction k s, l => l.insert k s
  | _, l => l

/-- The report of a re-org changes only the filters in memory, the filter headers and the height reached. -/
theorem reverts_rescan (p : Params) (e : Cbf.Env) (t : Tree) {m m' : Mgr} {reverted : List Nat} (h : m.step p e t (.headersImported reverted) = .ok m') :
    m'.rescan.watch = m.rescan.watch ∧ m'.rescan.transactions = m.rescan.transactions ∧ m'.rescan.active = m.rescan.active ∧ m'.rescan.start = m.rescan.start ∧
      m'.rescan.end = m.rescan.end ∧ m'.pending = m.pending := by
  have quiet : ∀ {a b : Mgr}, Quiet t a b → b.rescan.watch = a.rescan.watch ∧ b.rescan.transactions = a.rescan.transactions ∧ b.rescan.active = a.rescan.active ∧
      b.rescan.start = a.rescan.start ∧ b.rescan.end = a.rescan.end ∧ b.pending = a.pending := fun q => by
    rw [q.rescan]; exact ⟨rfl, rfl, rfl, rfl, rfl, q.pending⟩
  simp only [Mgr.step] at h
  split at h
  · rw [Res.bind_eq_ok] at h
    obtain ⟨k, -, h⟩ := h
    rw [Res.bind_eq_ok] at h
    obtain ⟨m1, h1, h⟩ := h
    have q := quiet (Cbf.quiet_sync p e t _ m' h)
    rcases Cbf.rollback_cases e m m1 k h1 with ⟨rfl, -⟩ | ⟨-, c, -, hx, -⟩
    · exact q
    · rw [hx] at q
      exact q
  · exact quiet (Cbf.quiet_sync p e t _ m' h)

theorem step_transactions (p : Params) (e : Cbf.Env) (t : Tree) {m m' : Mgr} {op : Op} (h : m.step p e t op = .ok m') :
    m'.rescan.transactions = txsAfter op m.rescan.transactions := by
  have quiet : ∀ {a b : Mgr}, Quiet t a b → b.rescan.transactions = a.rescan.transactions := fun q => by rw [q.rescan]
  cases op with
  | init => exact quiet (Cbf.quiet_idle p e t m m' h)
  | peerNegotiated addr ob hf pers =>
    simp only [Mgr.step] at h
    split at h
    · cases h; rfl
    · split at h
      · cases h; rfl
      · exact (quiet (a := { m with peers := m.peers.insert addr pers }) (Cbf.quiet_sync p e t _ m' h)).trans rfl
  | peerDisconnected addr => cases h; rfl
  | blockProcessed block height =>
    simp only [Mgr.step] at h
    split at h <;> (cases h; rfl)
  | blockDisconnected height => cases h; rfl
  | headersImported reverted => exact (reverts_rescan p e t h).2.1
  | txConfirmed txid => cases h; rfl
  | txReverted txid scripts => cases h; rfl
  | cfheaders peer msg =>
    obtain ⟨m0, o, h1, h2, h3, _, h5, q⟩ := Cbf.receivedCFHeaders_frame p e t m msg
    have q' : m0.rescan.transactions = m.rescan.transactions := by rw [q.rescan]
    simp only [Mgr.step] at h
    generalize m.receivedCFHeaders p e t msg = g at h h1 h2
    obtain ⟨g1, g2⟩ := g
    simp only at h1
    cases g2 with
    | ok n => cases h; rw [h1]; exact q'
    | err er =>
      cases er
      · cases h; rw [h1]; exact q'
      · cases h; simp only [Mgr.emit]; rw [h1]; exact q'
      · cases h; simp only [Mgr.emit]; rw [h1]; exact q'
    | panic => cases h
  | getcfheaders peer ft start stop =>
    have hcc := Cbf.receivedGetCFHeaders_frame p t m peer ft start stop
    simp only [Mgr.step] at h
    generalize m.receivedGetCFHeaders p t peer ft start stop = g at h hcc
    obtain ⟨g1, g2⟩ := g
    have hf : g1.rescan.transactions = m.rescan.transactions := by
      rcases hcc with rfl | ⟨_, _, rfl⟩ <;> rfl
    cases g2 with
    | ok n => cases h; exact hf
    | err er => cases er <;> (cases h; exact hf)
    | panic => cases h
  | cfilter peer ft block f =>
    have hcc := Cbf.receivedCFilter_cases p e t m peer ft block f
    simp only [Mgr.step] at h
    generalize m.receivedCFilter p e t peer ft block f = g at h hcc
    cases hcc with
    | ignored hi => cases h; rfl
    | invalid hh h0 h1 h2 h3 => cases h; rfl
    | unsolicited hh h0 h1 h2 h3 =>
      cases h
      rw [(Cbf.afterFilter_frame _ _).1]; rfl
    | scanned hh c r ms es n h0 h1 h2 h3 h4 h5 =>
      obtain ⟨_, _, p2, _⟩ := Cbf.process_facts p _ h5
      cases h
      rw [(Cbf.afterFilter_frame _ _).1]
      exact p2
    | panicked m' hh hp => simp at h
  | timer => exact quiet (Cbf.quiet_timerExpired p e t m m' h)
  | watch scripts => cases h; rfl
  | watchTransaction txid scripts => cases h; rfl
  | rescan a b w =>
    have hcc := Cbf.startRescan_cases p e t m a b w
    simp only [Mgr.step] at h
    generalize m.startRescan p e t a b w = g at h hcc
    cases hcc with
    | panicked m' => simp at h
    | nothing st _ => cases h; rfl
    | processed st m1 r ms es n _ q hp =>
      obtain ⟨_, _, p2, _⟩ := Cbf.process_facts p _ hp
      cases h
      show r.transactions = _
      rw [p2, q.rescan]
      rfl
  | getCFilters start stop =>
    have hqq := Cbf.quiet_getCFilters e t m start stop
    simp only [Mgr.step] at h
    generalize m.getCFilters e t start stop = g at h hqq
    obtain ⟨g1, g2⟩ := g
    cases g2 <;> simp at h <;> (subst h; exact quiet hqq)

/-- What a call of the filter manager does to the scripts watched. -/
def watchAfter : Op → List Nat → List Nat
  | .rescan _ _ w, _ => w
  | .watch v, l => l ++ v.filter (fun s => !l.contains s)
  | _, l => l

theorem step_watched (p : Params) (e : Cbf.Env) (t : Tree) {m m' : Mgr} {op : Op} (h : m.step p e t op = .ok m') :
    m'.rescan.watch = watchAfter op m.rescan.watch := by
  by_cases h0 : ∃ rv, op = .headersImported rv
  · obtain ⟨rv, rfl⟩ := h0
    exact (reverts_rescan p e t h).1
  by_cases h1 : ∃ a b w, op = .rescan a b w
  · obtain ⟨a, b, w, rfl⟩ := h1
    exact rescan_watch p e t h
  · by_cases h2 : ∃ v, op = .watch v
    · obtain ⟨v, rfl⟩ := h2
      cases h; rfl
    · have hp : op.plain = true := by
        cases op <;> first | rfl | exact absurd ⟨_, rfl⟩ h0 | exact absurd ⟨_, _, _, rfl⟩ h1
      rw [step_watch p e t h hp fun v hv => h2 ⟨v, hv⟩]
      cases op <;> first | rfl | exact absurd ⟨_, _, _, rfl⟩ h1 | exact absurd ⟨_, rfl⟩ h2

/-! ## The state machine -/

variable {cfg : Cfg} {U : Header → Prop} {fail : Bool} {t0 : Chain.State} {n n' n'' : Fsm} {g : Header} {S : Block → Prop} {A : Nat → Prop}

/-- The call of the filter manager that an input leads to. -/
def opOf (n : Fsm) : Input → Option Op
  | .init => some .init
  | .negotiated a _ outbound _ filters _ _ persistent => some (.peerNegotiated a outbound filters persistent)
  | .disconnected a => some (.peerDisconnected a)
  | .cfheaders a msg => some (.cfheaders a msg)
  | .getcfheaders a filterType start stop => some (.getcfheaders a filterType start stop)
  | .cfilter a filterType block f => some (.cfilter a filterType block f)
  | .timer => some .timer
  | .requestFilters start stop => some (.getCFilters start stop)
  | .submit t => some (.watchTransaction t.txid (t.outputs.map (·.script)))
  | .rescan start stop w => some (.rescan start stop w)
  | .watch v => some (.watch v)
  | .next =>
    match n.qSync, n.qInv with
    | .disconnected height _ :: _, _ => some (.blockDisconnected height)
    | .imported _ _ _ _ r :: _, _ => some (.headersImported (r.map (·.1)))
    | [], .processed b height _ :: _ => some (.blockProcessed b.hash height)
    | [], .confirmed k _ _ :: _ => some (.txConfirmed k)
    | [], .reverted t :: _ => some (.txReverted t.txid (t.outputs.map (·.script)))
    | _, _ => none
  | _ => none

/-- One input leads to at most one call of the filter manager. -/
theorem step_op {e : Env} {i : Input} (hs : n.step cfg e i = .ok n') :
    match opOf n i with
    | none => n'.cbf = n.cbf
    | some op => ∃ t, n.cbf.step cfg.cbf e.cbf (view cfg t) op = .ok n'.cbf := by
  have one : ∀ {m m' : Fsm} {b : Option Block} {op : Op}, m.callCbf cfg e.cbf b op = .ok m' →
      m.cbf.step cfg.cbf e.cbf (view cfg m.tree) op = .ok m'.cbf := fun h => (called_scans h).1
  cases i with
  | init =>
    simp only [Fsm.step, Res.bind_eq_ok] at hs
    obtain ⟨n1, h1, h2⟩ := hs
    exact ⟨_, callSync_cbf h1 ▸ one h2⟩
  | negotiated =>
    simp only [Fsm.step, Res.bind_eq_ok] at hs
    obtain ⟨n1, h1, n2, h2, h3⟩ := hs
    refine ⟨n.tree, ?_⟩
    rw [callSync_cbf h3, callInv_cbf h2]
    exact one h1
  | disconnected =>
    simp only [Fsm.step, Res.bind_eq_ok] at hs
    obtain ⟨n1, h1, n2, h2, h3⟩ := hs
    refine ⟨n.tree, ?_⟩
    rw [callSync_cbf h3, callInv_cbf h2]
    exact one h1
  | headers a hs' => exact callSync_cbf hs
  | getheaders => exact callSync_cbf hs
  | invs => exact callSync_cbf hs
  | block b => exact callInv_cbf hs
  | getdata => simp only [Fsm.step] at hs; exact callInv_cbf hs
  | cfheaders => exact ⟨_, one hs⟩
  | getcfheaders => exact ⟨_, one hs⟩
  | cfilter => exact ⟨_, one hs⟩
  | timer =>
    simp only [Fsm.step, Res.bind_eq_ok] at hs
    obtain ⟨n1, h1, n2, h2, h3⟩ := hs
    refine ⟨n2.tree, ?_⟩
    rw [← callInv_cbf h1, ← callSync_cbf h2]
    exact one h3
  | importHeaders hs' => exact callSync_cbf hs
  | requestFilters => exact ⟨_, one hs⟩
  | requestBlock k => simp only [Fsm.step] at hs; exact callInv_cbf hs
  | submit t =>
    simp only [Fsm.step, Res.bind_eq_ok] at hs
    obtain ⟨n1, h1, h2⟩ := hs
    refine ⟨n.tree, ?_⟩
    rw [callInv_cbf h2]
    exact one h1
  | rescan a b v => exact ⟨_, one hs⟩
  | watch v => simp only [Fsm.step] at hs; exact ⟨_, one hs⟩
  | next =>
    simp only [Fsm.step, Fsm.next] at hs
    split at hs
    · rename_i o q hq
      cases o with
      | disconnected height hash => simp only [opOf, hq]; exact ⟨n.tree, one (m := { n with qSync := q }) hs⟩
      | imported a b c d r =>
        simp only [Fsm.deliverSync, Res.bind_eq_ok] at hs
        obtain ⟨n1, h1, h2⟩ := hs
        simp only [opOf, hq]
        refine ⟨n.tree, ?_⟩
        rw [callInv_cbf h2]
        exact one (m := { n with qSync := q }) h1
      | _ => cases hs; simp only [opOf, hq]
    · rename_i hq0
      split at hs
      · rename_i o q hq
        cases o with
        | processed b height fees => simp only [opOf, hq0, hq]; exact ⟨n.tree, one (m := { n with qInv := q }) hs⟩
        | confirmed => simp only [Fsm.deliverInv] at hs; simp only [opOf, hq0, hq]; exact ⟨n.tree, one (m := { n with qInv := q }) hs⟩
        | reverted => simp only [Fsm.deliverInv] at hs; simp only [opOf, hq0, hq]; exact ⟨n.tree, one (m := { n with qInv := q }) hs⟩
        | _ => cases hs; simp only [opOf, hq0, hq]
      · rename_i hq
        cases hs
        simp only [opOf, hq0, hq]

/-- What waits in the queue of the inventory manager was put out. -/
def Queued (n : Fsm) : Prop := ∀ o ∈ n.qInv, Out.inv o ∈ n.log

theorem Queued.callInv {op : Inv.Op} (q : Queued n) (e : n.callInv cfg op = .ok n') : Queued n' := by
  obtain ⟨m, _, rfl⟩ := callInv_ok e
  intro o ho
  rcases List.mem_append.1 ho with h | h
  · exact List.mem_append_left _ (q o h)
  · exact List.mem_append_right _ (List.mem_map_of_mem h)

theorem Queued.callSync {op : Sync.Op} (q : Queued n) (e : n.callSync cfg op = .ok n') : Queued n' := by
  obtain ⟨m, t, _, rfl⟩ := callSync_ok e
  exact fun o ho => List.mem_append_left _ (q o ho)

theorem Queued.callCbf {env : Cbf.Env} {b : Option Block} {op : Op} (q : Queued n) (e : n.callCbf cfg env b op = .ok n') : Queued n' := by
  obtain ⟨c, _, hr⟩ := callCbf_ok e
  have a := requestBlocks_asks _ hr
  obtain ⟨l, x1, _, x3⟩ := a.log
  intro o ho
  rw [x3] at ho
  rw [x1]
  rcases List.mem_append.1 ho with h | h
  · exact List.mem_append_left _ (List.mem_append_left _ (q o h))
  · exact List.mem_append_right _ (List.mem_map_of_mem h)

theorem Queued.step {e : Env} {i : Input} (q : Queued n) (hs : n.step cfg e i = .ok n') : Queued n' := by
  cases i with
  | init =>
    simp only [Fsm.step, Res.bind_eq_ok] at hs
    obtain ⟨n1, h1, h2⟩ := hs
    exact (q.callSync h1).callCbf h2
  | negotiated =>
    simp only [Fsm.step, Res.bind_eq_ok] at hs
    obtain ⟨n1, h1, n2, h2, h3⟩ := hs
    exact ((q.callCbf h1).callInv h2).callSync h3
  | disconnected =>
    simp only [Fsm.step, Res.bind_eq_ok] at hs
    obtain ⟨n1, h1, n2, h2, h3⟩ := hs
    exact ((q.callCbf h1).callInv h2).callSync h3
  | headers a hs' => exact q.callSync hs
  | getheaders => exact q.callSync hs
  | invs => exact q.callSync hs
  | block b => exact q.callInv hs
  | getdata => simp only [Fsm.step] at hs; exact q.callInv hs
  | cfheaders => exact q.callCbf hs
  | getcfheaders => exact q.callCbf hs
  | cfilter => exact q.callCbf hs
  | timer =>
    simp only [Fsm.step, Res.bind_eq_ok] at hs
    obtain ⟨n1, h1, n2, h2, h3⟩ := hs
    exact ((q.callInv h1).callSync h2).callCbf h3
  | importHeaders hs' => exact q.callSync hs
  | requestFilters => exact q.callCbf hs
  | requestBlock k => simp only [Fsm.step] at hs; exact q.callInv hs
  | submit t =>
    simp only [Fsm.step, Res.bind_eq_ok] at hs
    obtain ⟨n1, h1, h2⟩ := hs
    exact (q.callCbf h1).callInv h2
  | rescan a b v => exact q.callCbf hs
  | watch v => simp only [Fsm.step] at hs; exact q.callCbf hs
  | next =>
    simp only [Fsm.step, Fsm.next] at hs
    split at hs
    · rename_i o l hq
      have q1 : Queued { n with qSync := l } := q
      cases o with
      | disconnected height hash => simp only [Fsm.deliverSync] at hs; exact q1.callCbf hs
      | imported a b c d r =>
        simp only [Fsm.deliverSync, Res.bind_eq_ok] at hs
        obtain ⟨n1, h1, h2⟩ := hs
        exact (q1.callCbf h1).callInv h2
      | _ => cases hs; exact q
    · split at hs
      · rename_i o l hq
        have q1 : Queued { n with qInv := l } := fun x hx => q x (by rw [hq]; exact List.mem_cons_of_mem _ hx)
        cases o with
        | processed b height fees => exact q1.callCbf hs
        | confirmed => simp only [Fsm.deliverInv] at hs; exact q1.callCbf hs
        | reverted => simp only [Fsm.deliverInv] at hs; exact q1.callCbf hs
        | _ => cases hs; exact q1
      · cases hs; exact q

theorem run_queued {P : Hist → Fsm → Input → Fsm → List Out → Prop} {h : Hist} (r : Run cfg U fail P t0 h n) : Queued n := by
  induction r with
  | start f cs => intro o ho; cases ho
  | step e r l hs ho p ih => exact ih.step hs

/-- The scripts watched are those the history says. -/
theorem run_watching {P : Hist → Fsm → Input → Fsm → List Out → Prop} {h : Hist} (r : Run cfg U fail P t0 h n) : n.cbf.rescan.watch = watching h := by
  induction r with
  | start f cs => rfl
  | @step h n n' i outs e r l hs ho p ih =>
    have h1 := step_op hs
    cases ho : opOf n i with
    | none =>
      rw [ho] at h1
      rw [show n'.cbf = n.cbf from h1, ih]
      cases i <;> first | rfl | cases ho
    | some op =>
      rw [ho] at h1
      obtain ⟨t, h1⟩ := h1
      rw [step_watched _ _ _ h1, ih]
      cases i with
      | next =>
        simp only [opOf] at ho
        split at ho <;> first | (cases ho; rfl) | cases ho
      | _ => cases ho <;> rfl

/-- The transactions watched are those the history says. -/
theorem run_tracked {P : Hist → Fsm → Input → Fsm → List Out → Prop} {h : Hist} (r : Run cfg U fail P t0 h n) : Tracked h n.cbf.rescan.transactions := by
  induction r with
  | start f cs => exact ⟨fun x hx => absurd hx (List.not_mem_nil), fun t outs hx => absurd hx (List.not_mem_nil)⟩
  | @step h n n' i outs e r l hs hlog p ih =>
    have h1 := step_op hs
    have old : Tracked h n.cbf.rescan.transactions → (∀ t, i ≠ .submit t) → Tracked ((i, outs) :: h) n.cbf.rescan.transactions := by
      intro T hi
      refine ⟨fun x hx => ?_, fun t o ht hn => ?_⟩
      · obtain ⟨t, e1, e2⟩ := T.only x hx
        refine ⟨t, e1, e2.imp (fun ⟨o, h⟩ => ⟨o, List.mem_cons_of_mem _ h⟩) fun h => ?_⟩
        rw [outputs_cons]
        exact List.mem_append_left _ h
      · rcases List.mem_cons.1 ht with ht | ht
        · exact absurd (congrArg Prod.fst ht).symm (hi t)
        · exact T.all t o ht fun a b hm => hn a b (by rw [outputs_cons]; exact List.mem_append_left _ hm)
    cases ho : opOf n i with
    | none =>
      rw [ho] at h1
      rw [show n'.cbf = n.cbf from h1]
      exact old ih fun t ht => by rw [ht] at ho; cases ho
    | some op =>
      rw [ho] at h1
      obtain ⟨t, h1⟩ := h1
      rw [step_transactions _ _ _ h1]
      cases i with
      | next =>
        have T := old ih (by simp)
        simp only [opOf] at ho
        split at ho
        · cases ho; exact T
        · cases ho; exact T
        · cases ho; exact T
        · rename_i k bk hg _ _ hq
          cases ho
          refine ⟨fun x hx => T.only x (mem_erase hx), fun t o ht hn => ?_⟩
          obtain ⟨s, hm⟩ := T.all t o ht hn
          refine ⟨s, mem_erase_of hm fun hk => ?_⟩
          have := run_queued r (.confirmed k bk hg) (by rw [hq]; exact List.mem_cons_self ..)
          rw [run_log r] at this
          refine hn bk hg ?_
          rw [outputs_cons]
          rw [show t.txid = k from hk]
          exact List.mem_append_left _ this
        · rename_i t' _ _ hq
          cases ho
          refine ⟨fun x hx => ?_, fun t o ht hn => ?_⟩
          · rcases mem_insert hx with rfl | hx
            · refine ⟨t', rfl, .inr ?_⟩
              have := run_queued r (.reverted t') (by rw [hq]; exact List.mem_cons_self ..)
              rw [run_log r] at this
              rw [outputs_cons]
              exact List.mem_append_left _ this
            · exact T.only x hx
          · obtain ⟨s, hm⟩ := T.all t o ht hn
            exact mem_insert_of _ _ hm
        · cases ho
      | submit t' =>
        cases ho
        refine ⟨fun x hx => ?_, fun t o ht hn => ?_⟩
        · rcases mem_insert hx with rfl | hx
          · exact ⟨t', rfl, .inl ⟨outs, List.mem_cons_self ..⟩⟩
          · obtain ⟨t, e1, e2⟩ := ih.only x hx
            refine ⟨t, e1, e2.imp (fun ⟨o, h⟩ => ⟨o, List.mem_cons_of_mem _ h⟩) fun h => ?_⟩
            rw [outputs_cons]
            exact List.mem_append_left _ h
        · rcases List.mem_cons.1 ht with ht | ht
          · simp only [Prod.mk.injEq, Input.submit.injEq] at ht
            obtain ⟨rfl, _⟩ := ht
            exact ⟨_, List.mem_cons_self ..⟩
          · obtain ⟨s, hm⟩ := ih.all t o ht fun a b hm => hn a b (by rw [outputs_cons]; exact List.mem_append_left _ hm)
            exact mem_insert_of _ _ hm
      | _ => cases ho <;> exact old ih (by simp)

end Verif.Node
