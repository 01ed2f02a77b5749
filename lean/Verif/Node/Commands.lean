import Verif.Node.Watch

/-!
# The state machine: commands given twice, and scans of the future
-/

set_option autoImplicit false

namespace Verif.Node
open Verif.Tx (Block Transaction)

variable {cfg : Cfg} {n n' n'' : Fsm}

/-! ## C94: a rescan of heights that are not there yet -/

/-- **C94, what holds.** A rescan that starts above the last filter header: nothing is put out but the event that it started, nothing is requested, scanned or reported, and only the
state of the scan changes.  Missing: that state does change, so that later scans differ (`C94_moves_scan`). -/
theorem C94_future_partial {e : Env} {s : Nat} {stop : Cbf.Bound} {w : List Nat} (hs : n.step cfg e (.rescan (.included s) stop w) = .ok n')
    (hf : n.cbf.filters.height < s) : ∃ last, n'.log = n.log ++ [.cbf (.event (.rescanStarted s last))] ∧
    n' = { n with cbf := { n.cbf with rescan := n'.cbf.rescan, out := n'.cbf.out }, qCbf := n'.qCbf, log := n'.log } := by
  simp only [Fsm.step, Fsm.callCbf, Cbf.Mgr.step, Cbf.Mgr.startRescan] at hs
  cases hl : (stop.last cfg.cbf.checked : Res Unit (Option Nat)) with
  | ok last =>
    simp only [hl, Cbf.Bound.first] at hs
    have hw : ∀ m : Cbf.Mgr, m.filters = n.cbf.filters → m.lastWanted last < s := by
      intro m hm
      unfold Cbf.Mgr.lastWanted
      rw [hm]
      split <;> omega
    have hfetch : ∀ m : Cbf.Mgr, m.filters = n.cbf.filters → m.fetchRescan cfg.cbf e.cbf (view cfg n.tree) s (m.lastWanted last) = (m, .ok []) := by
      intro m hm
      unfold Cbf.Mgr.fetchRescan
      split
      · rfl
      · rw [if_pos (hw m hm)]
    rw [hfetch (Cbf.Mgr.emit { n.cbf with rescan := n.cbf.rescan.restart s last w } [.event (.rescanStarted s last)]) rfl] at hs
    simp only [Cbf.Mgr.emit, List.map_nil, List.append_nil, List.drop_append_length] at hs
    cases hs
    exact ⟨last, rfl, rfl⟩
  | err x => simp [hl] at hs
  | panic => simp [hl] at hs

/-! ## C95: commands given twice -/

theorem insert_insert (k : Nat) {V : Type} (v : V) (m : AMap Nat V) : (m.insert k v).insert k v = m.insert k v := by
  simp [AMap.insert, AMap.erase, List.filter_filter]

theorem sinsert_sinsert (k : Nat) (v : Transaction) : ∀ m : AMap Nat Transaction, Inv.poolInsert k v (Inv.poolInsert k v m) = Inv.poolInsert k v m
  | [] => by simp [Inv.poolInsert, sinsert]
  | (k', v') :: m => by
    have ih := sinsert_sinsert k v m
    simp only [Inv.poolInsert] at ih ⊢
    rcases Nat.lt_trichotomy k k' with h | rfl | h
    · simp [sinsert, h]
    · simp [sinsert]
    · have : ¬ k < k' := by omega
      simp [sinsert, h, this, ih]

theorem mapPeers_mapPeers (f : Inv.Peer → Inv.Peer) (hf : ∀ p, f (f p) = f p) (l : AMap Nat Inv.Peer) : Inv.mapPeers f (Inv.mapPeers f l) = Inv.mapPeers f l := by
  simp [Inv.mapPeers, hf]

theorem announce_announce (m : Inv.Mgr) (t : Transaction) : { m.announce t with out := [] }.announce t = { m.announce t with out := [.timer 1000] } := by
  have hp := mapPeers_mapPeers (fun p => if p.relay then { p with outbox := p.outbox.insert t.wtxid t.txid } else p)
    (by intro p; by_cases hr : p.relay = true <;> simp [hr, insert_insert]) m.peers
  unfold Inv.Mgr.announce Inv.Mgr.scheduleTick
  simp only [sinsert_sinsert, List.nil_append]
  rw [hp]

theorem getBlock_getBlock (m : Inv.Mgr) (k : Nat) : { m.getBlock k with out := [] }.getBlock k = { m.getBlock k with out := [.timer 1000] } := by
  unfold Inv.Mgr.getBlock Inv.Mgr.scheduleTick
  by_cases h : m.remaining.contains k = true
  · simp [h]
  · have : (m.remaining.insert k none).contains k = true := by simp [AMap.contains, AMap.insert, AMap.get]
    simp [h, this]

theorem callCbf_silent {env : Cbf.Env} {op : Cbf.Op} {c : Cbf.Mgr} (h : n.cbf.step cfg.cbf env (view cfg n.tree) op = .ok c) (ho : c.out = n.cbf.out) :
    n.callCbf cfg env none op = .ok { n with cbf := c } := by
  unfold Fsm.callCbf
  simp [h, ho, requested, Fsm.requestBlocks]

theorem callCbf_watch {env : Cbf.Env} (v : List Nat) : n.callCbf cfg env none (.watch v) =
    .ok { n with cbf := { n.cbf with rescan := { n.cbf.rescan with watch := n.cbf.rescan.watch ++ v.filter (fun s => !n.cbf.rescan.watch.contains s) } } } :=
  callCbf_silent (c := { n.cbf with rescan := { n.cbf.rescan with watch := n.cbf.rescan.watch ++ v.filter (fun s => !n.cbf.rescan.watch.contains s) } }) rfl rfl

theorem callCbf_track {env : Cbf.Env} (k : Nat) (v : List Nat) : n.callCbf cfg env none (.watchTransaction k v) =
    .ok { n with cbf := { n.cbf with rescan := { n.cbf.rescan with transactions := n.cbf.rescan.transactions.insert k v } } } :=
  callCbf_silent (c := { n.cbf with rescan := { n.cbf.rescan with transactions := n.cbf.rescan.transactions.insert k v } }) rfl rfl

/-- The second state is the first, with some more requests for a wake-up put out. -/
def SameButWakeups (n n' : Fsm) : Prop :=
  ∃ l : List Inv.Out, (∀ o ∈ l, ∃ d, o = .timer d) ∧ n' = { n with qInv := n.qInv ++ l, log := n.log ++ l.map .inv }

/-- **C95.** Commands to watch scripts, to submit a transaction or to request a block are idempotent: a second, equal command at once changes nothing, but that
the state machine asks to be woken up once more. -/
theorem C95_idempotent {e1 e2 : Env} {i : Input} (hi : (∃ v, i = .watch v) ∨ (∃ t, i = .submit t) ∨ ∃ k, i = .requestBlock k)
    (h1 : n.step cfg e1 i = .ok n') (h2 : n'.step cfg e2 i = .ok n'') : SameButWakeups n' n'' := by
  rcases hi with ⟨v, rfl⟩ | ⟨t, rfl⟩ | ⟨k, rfl⟩
  · simp only [Fsm.step] at h1 h2
    rw [callCbf_watch] at h1
    cases h1
    rw [callCbf_watch] at h2
    cases h2
    refine ⟨[], by simp, ?_⟩
    simp
    exact fun a h1 h2 => ⟨h1, h2⟩
  · simp only [Fsm.step] at h1 h2
    rw [callCbf_track] at h1
    simp only [Res.ok_bind] at h1
    obtain ⟨m, hm, rfl⟩ := callInv_ok h1
    rw [callCbf_track] at h2
    simp only [Res.ok_bind] at h2
    obtain ⟨m', hm', rfl⟩ := callInv_ok h2
    cases hm
    cases hm'
    refine ⟨[.timer 1000], by simp, ?_⟩
    simp only [announce_announce, insert_insert]
    rfl
  · simp only [Fsm.step] at h1 h2
    obtain ⟨m, hm, rfl⟩ := callInv_ok h1
    obtain ⟨m', hm', rfl⟩ := callInv_ok h2
    cases hm
    cases hm'
    refine ⟨[.timer 1000], by simp, ?_⟩
    simp only [getBlock_getBlock]
    unfold Inv.Mgr.getBlock Inv.Mgr.scheduleTick
    by_cases h : n.inv.remaining.contains k = true <;> simp [h]

end Verif.Node
