import Verif.Node.PropsOwners
import Verif.Cbf.PropsCache

/-!
# Stopping and starting the client

What the client keeps on disk about the chain, what a crash leaves there, and what it makes of it at the next start.
-/

set_option autoImplicit false

namespace Verif.Node
open Verif.Tx (Block Transaction)
open Verif.Chain (Header)

variable {cfg : Cfg} {U : Header → Prop} {fail : Bool} {t0 : Chain.State} {g : Header} {h : Hist} {n n' : Fsm} {ow : List Nat}

/-! ## Model -/

/-- The entries in the files `headers.db` and `filters.db`, client/src/client.rs:270-323.  Simplified: entries, not bytes; a file that ends in the middle of
an entry is cut at the last whole entry by `open`, `check` and `heal` (`Verif.Store`, C21). -/
structure Disk where
  headers : List Header
  filters : List Cbf.Entry
  deriving DecidableEq

/-- What is in the files while the client runs. -/
def Fsm.disk (n : Fsm) : Disk := ⟨n.tree.store, n.cbf.filters.store⟩

/-- `Client::load`, client/src/client.rs:296-338, and `StateMachine::new`, p2p/src/fsm.rs:431-502, as far as block headers and filter headers go.  `verify` is the
configuration option.  Simplified: the progress callback never interrupts. -/
def restart (cfg : Cfg) (g : Header) (verify : Bool) (cacheSize : Nat) (d : Disk) : Option Fsm :=
  match Chain.load cfg.sync.chain (Chain.new cfg.sync.chain g d.headers) with
  | .ok t =>
    match Cbf.loadWith d.filters (fun _ => false) with
    | .ok f =>
      if verify then
        match Cbf.verifyWith cfg.cbf (fun _ => false) f with
        | .ok () => some (Fsm.new t f cacheSize)
        | _ => none
      else some (Fsm.new t f cacheSize)
    | _ => none
  | _ => none

/-! ## Specification -/

/-- A file that held `old` and is to hold `new` is found with `d`: nothing was done yet, or what is not common to both was cut off and some of the new entries were
written. -/
def Partly {α : Type} (old new d : List α) : Prop := d = old ∨ (d <+: new ∧ ∀ c, c <+: old → c <+: new → c <+: d)

/-- What can be on disk if the process is killed while an input is handled: block headers are stored one by one, `import_blocks` (chain/src/block/cache.rs:575-597), and
filter headers message by message, `import_headers` (chain/src/filter/cache.rs:141-162). -/
inductive CrashIn (cfg : Cfg) (n : Fsm) : Env → Input → Disk → Prop where
  | headers {i : Input} {d : List Header} (e : Env) (pre : List (Header × Chain.Env)) (x : Header × Chain.Env) (post : List (Header × Chain.Env))
      (hb : i.batch = pre ++ x :: post) (hp : ∀ p, p <+: i.batch → (Chain.importBlocks cfg.sync.chain n.tree p).2 ≠ .panic)
      (hd : Partly (Chain.importBlocks cfg.sync.chain n.tree pre).1.store (Chain.importBlocks cfg.sync.chain n.tree (pre ++ [x])).1.store d) :
      CrashIn cfg n e i ⟨d, n.cbf.filters.store⟩
  | filters {i : Input} {n' : Fsm} {d : List Cbf.Entry} (e : Env) (hb : i.batch = []) (hs : n.step cfg e i = .ok n')
      (hd : Partly n.cbf.filters.store n'.cbf.filters.store d) : CrashIn cfg n e i ⟨n.tree.store, d⟩

/-- No report of a re-org waits to be delivered. -/
def Settled (n : Fsm) : Prop := ∀ b k k' cn rv, Sync.Out.imported b k k' cn rv ∈ n.qSync → rv = []

/-! ## Helpers -/

theorem settled_owned (s : Settled n) (o : Own cfg ow n) : ow <+: hashes cfg n.tree := by
  refine List.prefix_iff_getElem?.2 fun k hk => ?_
  rcases o.each k _ (List.getElem?_eq_getElem hk) with h1 | ⟨x, hx, h2⟩
  · exact h1
  · cases x with
    | imported b hash height cn rv =>
      obtain ⟨r, h3, -⟩ := h2
      rw [s _ _ _ _ _ hx] at h3
      cases h3
    | _ => cases h2

/-- A start on files that begin like those of a reachable state. -/
theorem restart_ok (c : Ctx cfg U false t0 g) {s : Chain.State} (hr : Chain.Reach cfg.sync.chain U g false s) {d : Disk} (h1 : d.headers <+: s.headers) (h2 : d.headers ≠ [])
    (h3 : d.filters ≠ []) {verify : Bool} (hv : verify = true → Cbf.FilterChain cfg.cbf d.filters) (cs : Nat) (hl : d.filters.length ≤ d.headers.length) :
    ∃ n0, restart cfg g verify cs d = some n0 ∧ n0.tree.headers = d.headers ∧ n0.cbf.filters.all = d.filters ∧ n0.disk = d ∧ Ctx cfg U false n0.tree g ∧
      Track cfg U false n0.tree [] n0 ((hashes cfg n0.tree).take d.filters.length) := by
  obtain ⟨inv, hm⟩ := Chain.reach_inv c.acyclic c.genesis hr
  obtain ⟨t, e1, i1, e2, e3, e4⟩ := Chain.load_prefix c.acyclic c.genesis inv h1 h2
  have hreach : Chain.Reach cfg.sync.chain U g false t := .restart rfl hr (by rw [hm rfl]; exact h1) h2 e1
  have c' : Ctx cfg U false t g := ⟨c.acyclic, c.genesis, hreach⟩
  cases hd : d.filters with
  | nil => exact absurd hd h3
  | cons x rest =>
    have hload : Cbf.loadWith d.filters (fun _ => false) = .ok ⟨x, rest, x :: rest⟩ := by
      rw [hd]
      simp [Cbf.loadWith]
    have hlen : t.headers.length = t.height + 1 := by
      have := chain_length (n := Fsm.new t ⟨x, rest, x :: rest⟩ cs) c' (.start)
      simpa [Chain.State.headers, Fsm.new] using this
    have hh : rest.length ≤ t.height := by
      rw [e2] at hlen
      rw [hd] at hl
      simp only [List.length_cons] at hl
      omega
    refine ⟨Fsm.new t ⟨x, rest, x :: rest⟩ cs, ?_, e2, rfl, ?_, c', .start ⟨x, rest, x :: rest⟩ cs rfl hh⟩
    · unfold restart
      rw [e1]
      simp only
      rw [hload]
      cases verify with
      | false => rfl
      | true =>
        simp only [if_true]
        rw [(Cbf.C23_verify_iff cfg.cbf ⟨x, rest, x :: rest⟩).2 (by have := hv rfl; rw [hd] at this; exact this)]
    · cases d with
      | mk dh df =>
        simp only at hd
        subst hd
        simp only [Fsm.disk, Fsm.new, Cbf.Mgr.new, e4]

theorem hashes_prefix {t t' : Chain.State} (h1 : t.headers <+: t'.headers) : hashes cfg t <+: hashes cfg t' := List.IsPrefix.map _ h1

end Verif.Node
