import Verif.Node.Runs
import Verif.Cbf.PropsReq
import Verif.Sync.Props

/-!
# The state machine: which peers the managers know, and whom they ask

`S`, `I` and `C` are the peers known to the sync manager, the inventory manager and the filter manager.
-/

set_option autoImplicit false

namespace Verif.Node
open Verif.Tx (Block Transaction)
open Verif.Chain (Header)

variable {cfg : Cfg} {U : Header → Prop} {fail : Bool} {t0 : Chain.State} {n n' : Fsm} {S I C S' I' C' : Nat → Prop}

/-- Requests go to `S` (headers), `I` (blocks, announcements) and `C` (filter headers, filters). -/
def Out.To (S I C : Nat → Prop) : Out → Prop
  | .sync (.getHeaders a _) => S a
  | .inv (.getBlock a _) => I a
  | .inv (.inv a _ _) => I a
  | .cbf (.getCFHeaders a _ _) => C a
  | .cbf (.getCFilters a _ _) => C a
  | _ => True

theorem Out.To.mono {o : Out} (h : o.To S I C) (hS : ∀ a, S a → S' a) (hI : ∀ a, I a → I' a) (hC : ∀ a, C a → C' a) : o.To S' I' C' := by
  unfold Out.To at h ⊢
  split at h
  · exact hS _ h
  · exact hI _ h
  · exact hI _ h
  · exact hC _ h
  · exact hC _ h
  · trivial

/-- Who is known. -/
structure Roster (cfg : Cfg) (U : Header → Prop) (fail : Bool) (t0 : Chain.State) (S I C : Nat → Prop) (n : Fsm) : Prop where
  parts : Parts cfg U fail t0 n
  sync : ∀ b, n.sync.peers.get b ≠ none ↔ S b
  inv : ∀ b, n.inv.peers.get b ≠ none → I b
  cbf : ∀ b ∈ n.cbf.peers.keys, C b
  logged : Cbf.Logged n.cbf

/-- What was put out since goes to these. -/
def PutOut (S I C : Nat → Prop) (n n' : Fsm) : Prop := ∃ d, n'.log = n.log ++ d ∧ ∀ o ∈ d, o.To S I C

end Verif.Node

namespace Verif.Node.Known
open Verif.Tx (Block Transaction)
open Verif.Chain (Header)

variable {cfg : Cfg} {U : Header → Prop} {fail : Bool} {t0 : Chain.State} {n n' n'' : Fsm} {S I C S' I' C' : Nat → Prop}

theorem PutOut.refl (h : n'.log = n.log) : PutOut S I C n n' := ⟨[], by rw [h]; simp, by simp⟩

theorem PutOut.trans (a : PutOut S I C n n') (b : PutOut S I C n' n'') : PutOut S I C n n'' := by
  obtain ⟨d, h1, h2⟩ := a
  obtain ⟨d', h3, h4⟩ := b
  refine ⟨d ++ d', by rw [h3, h1, List.append_assoc], fun o ho => ?_⟩
  rcases List.mem_append.1 ho with h | h
  · exact h2 o h
  · exact h4 o h

theorem PutOut.mono (a : PutOut S I C n n') (hS : ∀ a, S a → S' a) (hI : ∀ a, I a → I' a) (hC : ∀ a, C a → C' a) : PutOut S' I' C' n n' := by
  obtain ⟨d, h1, h2⟩ := a
  exact ⟨d, h1, fun o ho => (h2 o ho).mono hS hI hC⟩

/-- The peers the sync manager knows after an operation. -/
def syncAfter (S : Nat → Prop) (b : Nat) : Sync.Op → Prop
  | .negotiated _ _ a _ network _ outbound => (a = b ∧ (outbound = true → network = true)) ∨ S b
  | .gone a => a ≠ b ∧ S b
  | _ => S b

/-- The peers the inventory manager may know after an operation. -/
def invAfter (I : Nat → Prop) (b : Nat) : Inv.Op → Prop
  | .negotiated a _ _ _ => a = b ∨ I b
  | .disconnected a => a ≠ b ∧ I b
  | _ => I b

/-- The peers the filter manager may know after an operation. -/
def cbfAfter (C : Nat → Prop) (b : Nat) : Cbf.Op → Prop
  | .peerNegotiated a outbound filters _ => (a = b ∧ outbound = true ∧ filters = true) ∨ C b
  | .peerDisconnected a => a ≠ b ∧ C b
  | _ => C b

theorem sync_known {h : Sync.Hist} {m : Sync.Mgr} {t : Chain.State} (r : Sync.Run cfg.sync U fail (fun _ _ => True) t0 h m t) (b : Nat) :
    m.peers.get b ≠ none ↔ Sync.connected b h ≠ none := by
  rw [← (Sync.run_inv r).conn b]
  cases m.peers.get b <;> simp

theorem callSync {op : Sync.Op} (r : Roster cfg U fail t0 S I C n) (l : op.Legal U fail) (e : n.callSync cfg op = .ok n') :
    Roster cfg U fail t0 (fun b => syncAfter S b op) I C n' ∧ PutOut (fun b => syncAfter S b op) (fun _ => False) (fun _ => False) n n' := by
  have p := r.parts.callSync l e
  obtain ⟨m, t, hs, rfl⟩ := callSync_ok e
  obtain ⟨h, hr⟩ := r.parts.sync
  have hr' := Sync.Run.step hr l trivial hs
  have key : ∀ b, Sync.connected b ((op, m.out) :: h) ≠ none ↔ syncAfter S b op := by
    intro b
    have hb := (sync_known hr b).symm.trans (r.sync b)
    cases op with
    | negotiated env now a k network filters outbound =>
      simp only [Sync.connected, syncAfter]
      by_cases hc : a = b ∧ (outbound && !network) = false
      · rw [if_pos hc]
        refine ⟨fun _ => .inl ⟨hc.1, ?_⟩, fun _ => by simp⟩
        have := hc.2
        revert this
        cases outbound <;> cases network <;> simp
      · rw [if_neg hc, hb]
        refine ⟨.inr, ?_⟩
        rintro (⟨h1, h2⟩ | h1)
        · refine absurd ⟨h1, ?_⟩ hc
          revert h2
          cases outbound <;> cases network <;> simp
        · exact h1
    | gone a =>
      simp only [Sync.connected, syncAfter]
      by_cases hc : a = b
      · simp [hc]
      · simp [hc, ← hb]
    | headers env now a hs =>
      simp only [Sync.connected, syncAfter]
      split
      · rw [← hb]
        cases Sync.connected b h <;> simp
      · exact hb
    | _ => exact hb
  have keyS : ∀ b, m.peers.get b ≠ none ↔ syncAfter S b op := fun b => (sync_known hr' b).trans (key b)
  refine ⟨⟨p, keyS, r.inv, r.cbf, r.logged⟩, _, rfl, fun o ho => ?_⟩
  obtain ⟨x, hx, rfl⟩ := List.mem_map.1 ho
  cases x with
  | getHeaders a lc =>
    have hne : Sync.requests a m.out ≠ [] := by
      intro hn
      have := List.filterMap_eq_nil_iff.1 hn _ hx
      simp at this
    exact (key a).1 ((Sync.C50_one hr l hs a).2 hne).2
  | _ => trivial

theorem inv_known {h : Inv.Hist} {m : Inv.Mgr} (r : Inv.Run cfg.cbf.checked h m) (b : Nat) : m.peers.get b ≠ none ↔ Inv.connected b h ≠ none := by
  rw [(Inv.run_sync r).conn b]
  cases m.peers.get b <;> simp

theorem callInv {op : Inv.Op} (r : Roster cfg U fail t0 S I C n) (l : op.Legal) (e : n.callInv cfg op = .ok n') :
    Roster cfg U fail t0 S (fun b => invAfter I b op) C n' ∧ PutOut (fun _ => False) (fun b => invAfter I b op) (fun _ => False) n n' := by
  have p := r.parts.callInv l e
  obtain ⟨m, hs, rfl⟩ := callInv_ok e
  obtain ⟨h, hr⟩ := r.parts.inv
  have hr' := Inv.Run.step hr l hs
  have key : ∀ b, Inv.connected b ((op, m.out) :: h) ≠ none → invAfter I b op := by
    intro b
    have hb : Inv.connected b h ≠ none → I b := fun hc => r.inv b ((inv_known hr b).2 hc)
    cases op with
    | negotiated a x y z =>
      simp only [Inv.connected, invAfter]
      split
      · rename_i hc; exact fun _ => .inl hc
      · exact fun h => .inr (hb h)
    | disconnected a =>
      simp only [Inv.connected, invAfter]
      split
      · rename_i hc; simp
      · rename_i hc; exact fun h => ⟨hc, hb h⟩
    | timer env now height =>
      simp only [Inv.connected, invAfter]
      split
      · simp
      · exact hb
    | _ => exact hb
  refine ⟨⟨p, r.sync, fun b hb => key b ((inv_known hr' b).1 hb), r.cbf, r.logged⟩, _, rfl, fun o ho => ?_⟩
  obtain ⟨x, hx, rfl⟩ := List.mem_map.1 ho
  cases x with
  | getBlock a k =>
    obtain ⟨_, _, _, _, _, _, f, hf, _⟩ := Inv.C49_block_asked hr l hs hx
    exact key a (by rw [hf]; simp)
  | inv a bw ids =>
    obtain ⟨env, now, height, rfl⟩ := Inv.out_from hr l hs hx
    obtain ⟨f, hf, _⟩ := Inv.C47_announced hr l hs hx
    exact r.inv a ((inv_known hr a).2 (by rw [hf]; simp))
  | _ => trivial

theorem requestBlocks (ks : List Nat) (r : Roster cfg U fail t0 S I C n) (e : Fsm.requestBlocks cfg ks n = .ok n') :
    Roster cfg U fail t0 S I C n' ∧ PutOut (fun _ => False) (fun _ => False) (fun _ => False) n n' := by
  induction ks generalizing n with
  | nil => cases e; exact ⟨r, PutOut.refl rfl⟩
  | cons k ks ih =>
    simp only [Fsm.requestBlocks] at e
    rw [Res.bind_eq_ok] at e
    obtain ⟨n1, h1, h2⟩ := e
    obtain ⟨r1, -⟩ := callInv (op := .getBlock k) r trivial h1
    obtain ⟨r2, s2⟩ := ih r1 h2
    refine ⟨r2, PutOut.trans ?_ s2⟩
    obtain ⟨m, hs, rfl⟩ := callInv_ok h1
    refine ⟨_, rfl, fun o ho => ?_⟩
    obtain ⟨h, hr⟩ := r.parts.inv
    obtain ⟨x, hx, rfl⟩ := List.mem_map.1 ho
    cases x with
    | getBlock a k =>
      obtain ⟨_, _, _, hx⟩ := Inv.out_from hr (op := .getBlock _) trivial hs hx
      cases hx
    | inv a bw ids =>
      obtain ⟨_, _, _, hx⟩ := Inv.out_from hr (op := .getBlock _) trivial hs hx
      cases hx
    | _ => trivial

theorem callCbf {env : Cbf.Env} {b : Option Block} {op : Cbf.Op} (r : Roster cfg U fail t0 S I C n) (f : env.Fair) (e : n.callCbf cfg env b op = .ok n') :
    Roster cfg U fail t0 S I (fun b => cbfAfter C b op) n' ∧ PutOut (fun _ => False) (fun _ => False) (fun b => cbfAfter C b op) n n' := by
  obtain ⟨c, hs, hr⟩ := callCbf_ok e
  obtain ⟨h1, h2, o, h3, h4⟩ := Cbf.step_sends cfg.cbf env f (view cfg n.tree) n.cbf c op hs (fun b => cbfAfter C b op) r.logged (by
    rintro k (⟨hk, hn⟩ | ⟨pers, rfl⟩)
    · have := r.cbf k hk
      cases op with
      | peerNegotiated a x y z => exact .inr this
      | peerDisconnected a => exact ⟨fun hc => hn (by rw [hc]), this⟩
      | _ => exact this
    · exact .inl ⟨rfl, rfl, rfl⟩)
  obtain ⟨l, hl⟩ := r.parts.cbf
  have hd : c.out.drop n.cbf.out.length = o := by rw [h3]; simp
  rw [hd] at hr
  have r0 : Roster cfg U fail t0 S I (fun b => cbfAfter C b op)
      { n with cbf := c, qCbf := n.qCbf ++ o.filterMap (label b), log := n.log ++ o.filterMap (label b) } :=
    ⟨⟨r.parts.sync, r.parts.inv, ⟨_, .step env _ op hl hs⟩⟩, r.sync, r.inv, h1, h2⟩
  obtain ⟨r1, s1⟩ := requestBlocks _ r0 hr
  refine ⟨r1, PutOut.trans ?_ (PutOut.mono s1 (fun _ => False.elim) (fun _ => False.elim) (fun _ => False.elim))⟩
  refine ⟨_, rfl, fun y hy => ?_⟩
  obtain ⟨x, hx, hxy⟩ := List.mem_filterMap.1 hy
  have g := h4 x hx
  cases x with
  | getCFHeaders a s stop => cases b <;> (simp only [label, Option.some.injEq] at hxy; subst hxy; exact g.1)
  | getCFilters a s stop => cases b <;> (simp only [label, Option.some.injEq] at hxy; subst hxy; exact g.1)
  | event ev => cases b <;> cases ev <;> (simp only [label, Option.some.injEq] at hxy; subst hxy; trivial)
  | getBlock k => cases b <;> simp [label] at hxy
  | _ => cases b <;> (simp only [label, Option.some.injEq] at hxy; subst hxy; trivial)

/-- The peers known after an input; `Q`: the kind of peers that become known (outbound, serving blocks, serving filters). -/
def after (Q : Bool → Bool → Bool → Prop) (K : Nat → Prop) (b : Nat) : Input → Prop
  | .negotiated a _ outbound network filters _ _ _ => (a = b ∧ Q outbound network filters) ∨ K b
  | .disconnected a => a ≠ b ∧ K b
  | _ => K b

/-- Peers the sync manager takes. -/
def syncTakes (outbound network _filters : Bool) : Prop := outbound = true → network = true

/-- Peers the filter manager takes. -/
def cbfTakes (outbound _network filters : Bool) : Prop := outbound = true ∧ filters = true

/-- Peers the inventory manager takes. -/
def invTakes (_outbound _network _filters : Bool) : Prop := True

/-- The peers known, and asked, after an input. -/
def After (cfg : Cfg) (U : Header → Prop) (fail : Bool) (t0 : Chain.State) (S I C : Nat → Prop) (n n' : Fsm) (j : Input) : Prop :=
  Roster cfg U fail t0 (fun b => after syncTakes S b j) (fun b => after invTakes I b j) (fun b => after cbfTakes C b j) n' ∧
  PutOut (fun b => after syncTakes S b j) (fun b => after invTakes I b j) (fun b => after cbfTakes C b j) n n'

theorem roster_congr (r : Roster cfg U fail t0 S I C n) (hS : ∀ a, S a ↔ S' a) (hI : ∀ a, I a → I' a) (hC : ∀ a, C a → C' a) :
    Roster cfg U fail t0 S' I' C' n :=
  ⟨r.parts, fun b => (r.sync b).trans (hS b), fun b hb => hI b (r.inv b hb), fun b hb => hC b (r.cbf b hb), r.logged⟩

/-- Nothing changes for the inputs that are not about connections. -/
theorem plainS {op : Sync.Op} (r : Roster cfg U fail t0 S I C n) (l : op.Legal U fail) (e : n.callSync cfg op = .ok n') (h : ∀ b, syncAfter S b op = S b) :
    Roster cfg U fail t0 S I C n' ∧ PutOut S I C n n' := by
  obtain ⟨a, b⟩ := callSync r l e
  simp only [h] at a b
  exact ⟨a, PutOut.mono b (fun _ h => h) (fun _ => False.elim) (fun _ => False.elim)⟩

theorem plainI {op : Inv.Op} (r : Roster cfg U fail t0 S I C n) (l : op.Legal) (e : n.callInv cfg op = .ok n') (h : ∀ b, invAfter I b op = I b) :
    Roster cfg U fail t0 S I C n' ∧ PutOut S I C n n' := by
  obtain ⟨a, b⟩ := callInv r l e
  simp only [h] at a b
  exact ⟨a, PutOut.mono b (fun _ => False.elim) (fun _ h => h) (fun _ => False.elim)⟩

theorem plainC {env : Cbf.Env} {x : Option Block} {op : Cbf.Op} (r : Roster cfg U fail t0 S I C n) (f : env.Fair) (e : n.callCbf cfg env x op = .ok n')
    (h : ∀ b, cbfAfter C b op = C b) : Roster cfg U fail t0 S I C n' ∧ PutOut S I C n n' := by
  obtain ⟨a, b⟩ := callCbf r f e
  simp only [h] at a b
  exact ⟨a, PutOut.mono b (fun _ => False.elim) (fun _ => False.elim) (fun _ h => h)⟩

theorem step {e : Env} {j : Input} (r : Roster cfg U fail t0 S I C n) (l : Legal U fail e j) (f : e.cbf.Fair) (hs : n.step cfg e j = .ok n') :
    After cfg U fail t0 S I C n n' j := by
  cases j with
  | init =>
    simp only [Fsm.step] at hs
    rw [Res.bind_eq_ok] at hs
    obtain ⟨n1, h1, h2⟩ := hs
    obtain ⟨r1, s1⟩ := plainS r (op := .init e.sync e.now) ⟨l.sync, by simp [Sync.Op.batch]⟩ h1 (fun _ => rfl)
    obtain ⟨r2, s2⟩ := plainC r1 f h2 (fun _ => rfl)
    exact ⟨r2, PutOut.trans s1 s2⟩
  | negotiated a height outbound network filters relay wtxidrelay persistent =>
    simp only [Fsm.step] at hs
    rw [Res.bind_eq_ok] at hs
    obtain ⟨n1, h1, hs⟩ := hs
    rw [Res.bind_eq_ok] at hs
    obtain ⟨n2, h2, h3⟩ := hs
    obtain ⟨r1, s1⟩ := callCbf r f h1
    obtain ⟨r2, s2⟩ := callInv r1 (op := .negotiated a network relay wtxidrelay) trivial h2
    obtain ⟨r3, s3⟩ := callSync r2 (op := .negotiated e.sync e.now a height network filters outbound) ⟨l.sync, by simp [Sync.Op.batch]⟩ h3
    have hI : ∀ b, invAfter I b (.negotiated a network relay wtxidrelay) →
        after invTakes I b (.negotiated a height outbound network filters relay wtxidrelay persistent) := by
      rintro b (h | h)
      · exact .inl ⟨h, trivial⟩
      · exact .inr h
    refine ⟨roster_congr r3 (fun b => Iff.rfl) hI (fun b h => h), ?_⟩
    exact PutOut.trans (PutOut.mono s1 (fun _ => False.elim) (fun _ => False.elim) (fun _ h => h))
      (PutOut.trans (PutOut.mono s2 (fun _ => False.elim) hI (fun _ => False.elim)) (PutOut.mono s3 (fun _ h => h) (fun _ => False.elim) (fun _ => False.elim)))
  | disconnected a =>
    simp only [Fsm.step] at hs
    rw [Res.bind_eq_ok] at hs
    obtain ⟨n1, h1, hs⟩ := hs
    rw [Res.bind_eq_ok] at hs
    obtain ⟨n2, h2, h3⟩ := hs
    obtain ⟨r1, s1⟩ := callCbf r f h1
    obtain ⟨r2, s2⟩ := callInv r1 (op := .disconnected a) trivial h2
    obtain ⟨r3, s3⟩ := callSync r2 (op := .gone a) ⟨trivial, by simp [Sync.Op.batch]⟩ h3
    refine ⟨r3, ?_⟩
    exact PutOut.trans (PutOut.mono s1 (fun _ => False.elim) (fun _ => False.elim) (fun _ h => h))
      (PutOut.trans (PutOut.mono s2 (fun _ => False.elim) (fun _ h => h) (fun _ => False.elim)) (PutOut.mono s3 (fun _ h => h) (fun _ => False.elim) (fun _ => False.elim)))
  | headers a hs' => exact plainS r (op := .headers e.sync e.now a hs') ⟨l.sync, l.headers⟩ hs (fun _ => rfl)
  | getheaders a lc => exact plainS r (op := .getheaders a lc) ⟨trivial, by simp [Sync.Op.batch]⟩ hs (fun _ => rfl)
  | invs a items => exact plainS r (op := .inv e.now a items) ⟨trivial, by simp [Sync.Op.batch]⟩ hs (fun _ => rfl)
  | block b => exact plainI r (op := .block b _) trivial hs (fun _ => rfl)
  | getdata a items => exact plainI r (op := .getdata a items) trivial hs (fun _ => rfl)
  | cfheaders a msg => exact plainC r f hs (fun _ => rfl)
  | getcfheaders a x y z => exact plainC r f hs (fun _ => rfl)
  | cfilter a x y z => exact plainC r f hs (fun _ => rfl)
  | timer =>
    simp only [Fsm.step] at hs
    rw [Res.bind_eq_ok] at hs
    obtain ⟨n1, h1, hs⟩ := hs
    rw [Res.bind_eq_ok] at hs
    obtain ⟨n2, h2, h3⟩ := hs
    obtain ⟨r1, s1⟩ := plainI r (op := .timer e.inv e.now n.tree.height) l.inv h1 (fun _ => rfl)
    obtain ⟨r2, s2⟩ := plainS r1 (op := .timer e.sync e.now) ⟨l.sync, by simp [Sync.Op.batch]⟩ h2 (fun _ => rfl)
    obtain ⟨r3, s3⟩ := plainC r2 f h3 (fun _ => rfl)
    exact ⟨r3, PutOut.trans s1 (PutOut.trans s2 s3)⟩
  | importHeaders hs' => exact plainS r (op := .userImport e.sync hs') ⟨l.sync, l.headers⟩ hs (fun _ => rfl)
  | requestFilters x y => exact plainC r f hs (fun _ => rfl)
  | requestBlock k => exact plainI r (op := .getBlock k) trivial hs (fun _ => rfl)
  | submit t =>
    simp only [Fsm.step] at hs
    rw [Res.bind_eq_ok] at hs
    obtain ⟨n1, h1, h2⟩ := hs
    obtain ⟨r1, s1⟩ := plainC r f h1 (fun _ => rfl)
    obtain ⟨r2, s2⟩ := plainI r1 (op := .announce t) trivial h2 (fun _ => rfl)
    exact ⟨r2, PutOut.trans s1 s2⟩
  | rescan x y w => exact plainC r f hs (fun _ => rfl)
  | watch w => simp only [Fsm.step] at hs; have x := plainC r f hs (fun _ => rfl); exact x
  | next =>
    simp only [Fsm.step, Fsm.next] at hs
    split at hs
    · rename_i o q hq
      have r' : Roster cfg U fail t0 S I C { n with qSync := q } := ⟨⟨r.parts.sync, r.parts.inv, r.parts.cbf⟩, r.sync, r.inv, r.cbf, r.logged⟩
      cases o with
      | disconnected k x => simp only [Fsm.deliverSync] at hs; have w := plainC r' f hs (fun _ => rfl); exact w
      | imported ro hash height cn rv =>
        simp only [Fsm.deliverSync] at hs
        rw [Res.bind_eq_ok] at hs
        obtain ⟨n1, h1, h2⟩ := hs
        obtain ⟨r1, s1⟩ := plainC r' f h1 (fun _ => rfl)
        obtain ⟨r2, s2⟩ := plainI r1 (op := .reverted _) trivial h2 (fun _ => rfl)
        exact ⟨r2, PutOut.trans s1 s2⟩
      | _ => cases hs; exact ⟨r', PutOut.refl rfl⟩
    · split at hs
      · rename_i o q hq
        have r' : Roster cfg U fail t0 S I C { n with qInv := q } := ⟨⟨r.parts.sync, r.parts.inv, r.parts.cbf⟩, r.sync, r.inv, r.cbf, r.logged⟩
        cases o with
        | processed b height fees => simp only [Fsm.deliverInv] at hs; have w := plainC r' f hs (fun _ => rfl); exact w
        | confirmed x y z => simp only [Fsm.deliverInv] at hs; have w := plainC r' f hs (fun _ => rfl); exact w
        | reverted t => simp only [Fsm.deliverInv] at hs; have w := plainC r' f hs (fun _ => rfl); exact w
        | _ => cases hs; exact ⟨r', PutOut.refl rfl⟩
      · cases hs
        exact ⟨⟨⟨r.parts.sync, r.parts.inv, r.parts.cbf⟩, r.sync, r.inv, r.cbf, r.logged⟩, PutOut.refl rfl⟩

theorem new (f : Cbf.FilterHeaders) (c : Nat) : Roster cfg U fail t0 (fun _ => False) (fun _ => False) (fun _ => False) (Fsm.new t0 f c) :=
  ⟨⟨⟨_, .start⟩, ⟨_, .start⟩, ⟨_, .init f c⟩⟩, by simp [Fsm.new, Sync.Mgr.new], by simp [Fsm.new, Inv.Mgr.new],
    by simp [Fsm.new, Cbf.Mgr.new, AMap.keys], by simp [Fsm.new, Cbf.Mgr.new, Cbf.Logged]⟩

end Verif.Node.Known
