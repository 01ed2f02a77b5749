import Verif.Sync.Model
import Verif.Chain.PropsBatch

/-!
# Specification of header synchronization

A history is a list of operations with the outputs of each, most recent first.
-/

set_option autoImplicit false

namespace Verif.Sync
open Verif.Chain (Header State Err ImportResult)

abbrev Hist := List (Op × List Out)

/-- The headers presented by an operation, each with what the environment decides while it is imported. -/
def Op.batch : Op → List (Header × Chain.Env)
  | .headers _ _ _ hs | .userImport _ hs => hs
  | _ => []

/-- Random choices are real choices, the headers presented are among `U`, and the store fails only if `fail`. -/
def Op.Legal (U : Header → Prop) (fail : Bool) (op : Op) : Prop :=
  (match op with
    | .init env _ | .negotiated env _ _ _ _ _ _ | .headers env _ _ _ | .timer env _ | .userImport env _ => env.Legal
    | _ => True) ∧
  ∀ p ∈ op.batch, U p.1 ∧ Chain.EnvOk fail p.2

/-- The history `h` leads from the tree `t0` to the manager `m` and the tree `t`; nothing panicked, and each operation was as `P`
demands of the tree before it. -/
inductive Run (cfg : Cfg) (U : Header → Prop) (fail : Bool) (P : State → Op → Prop) (t0 : State) : Hist → Mgr → State → Prop where
  | start : Run cfg U fail P t0 [] Mgr.new t0
  | step {h : Hist} {m m' : Mgr} {t t' : State} {op : Op} (r : Run cfg U fail P t0 h m t) (l : op.Legal U fail) (p : P t op)
      (e : { m with out := [] }.step cfg t op = .ok (m', t')) : Run cfg U fail P t0 ((op, m'.out) :: h) m' t'

/-- When an operation happens. -/
def Op.time : Op → Nat
  | .init _ now | .negotiated _ now _ _ _ _ _ | .headers _ now _ _ | .inv now _ _ | .timer _ now => now
  | _ => 0

/-- The greatest height of a new tip reported. -/
def importedHeight (outs : List Out) : Nat :=
  (outs.filterMap (fun o => match o with | .imported _ _ n _ _ => some n | _ => none)).foldl max 0

/-- What is known of a connected peer: did we connect to it, does it serve compact filters, how high is its chain? -/
structure Info where
  outbound : Bool
  filters : Bool
  height : Nat
  deriving DecidableEq, Repr

/-- The connected peers.  Peers we connected to that do not serve blocks do not count.  The height is the one the peer told us when it connected,
or the highest tip it gave us headers for. -/
def connected (a : Nat) : Hist → Option Info
  | [] => none
  | (op, outs) :: h =>
    match op with
    | .negotiated _ _ b n network filters outbound =>
      if b = a ∧ (outbound && !network) = false then some ⟨outbound, filters, n⟩ else connected a h
    | .gone b => if b = a then none else connected a h
    | .headers _ _ b _ =>
      if b = a then (connected a h).map (fun i => { i with height := max i.height (importedHeight outs) }) else connected a h
    | _ => connected a h

/-- Why headers were requested: to continue after a full batch, because of an announced block, by the timer, or otherwise. -/
inductive Cause where
  | continued
  | announced
  | timer
  | other
  deriving DecidableEq, Repr

/-- A request for headers. -/
structure Sent where
  time : Nat
  locators : Locators
  cause : Cause
  deriving DecidableEq, Repr

/-- Does the output report a new tip? -/
def Out.isImported : Out → Bool
  | .imported _ _ _ _ _ => true
  | _ => false

/-- The reason for the requests made by an operation. -/
def cause (op : Op) (outs : List Out) : Cause :=
  match op with
  | .headers _ _ _ hs => if 2000 ≤ hs.length ∧ outs.any Out.isImported = true then .continued else .other
  | .inv _ _ _ => .announced
  | .timer _ _ => .timer
  | _ => .other

/-- The requests sent to a peer. -/
def requests (a : Nat) (outs : List Out) : List Locators :=
  outs.filterMap (fun o => match o with | .getHeaders b l => if b = a then some l else none | _ => none)

/-- An outstanding request ends when the peer sends headers or disconnects, and when a timer fires after the time-out. -/
def release (cfg : Cfg) (a : Nat) (op : Op) (w : Option Sent) : Option Sent :=
  match op with
  | .headers _ _ b _ | .gone b => if b = a then none else w
  | .timer _ now => w.filter (fun s => now - s.time < cfg.timeout)
  | _ => w

/-- The request to a peer that is outstanding. -/
def awaiting (cfg : Cfg) (a : Nat) : Hist → Option Sent
  | [] => none
  | (op, outs) :: h =>
    match requests a outs with
    | l :: _ => some ⟨op.time, l, cause op outs⟩
    | [] => release cfg a op (awaiting cfg a h)

/-- What a peer was last asked for since it connected. -/
def lastAsked (a : Nat) : Hist → Option Locators
  | [] => none
  | (op, outs) :: h =>
    match requests a outs with
    | l :: _ => some l
    | [] =>
      match op with
      | .negotiated _ _ b _ network _ outbound => if b = a ∧ (outbound && !network) = false then none else lastAsked a h
      | .gone b => if b = a then none else lastAsked a h
      | _ => lastAsked a h

/-- When a peer last gave us a new tip. -/
def tipUpdated : Hist → Option Nat
  | [] => none
  | (op, outs) :: h =>
    match op with
    | .headers _ now _ _ => if outs.any Out.isImported then some now else tipUpdated h
    | _ => tipUpdated h

/-- The tip is recent: less than two hours old, and if a peer gave us a new tip, the last time it did is at most three block intervals ago. -/
structure Recent (cfg : Cfg) (h : Hist) (t : State) (now : Nat) : Prop where
  tip : now < (t.tip cfg.chain).2.time * 1000 + 7200000
  update : ∀ u, tipUpdated h = some u → now ≤ u + cfg.chain.spacing * 3 * 1000

/-- The tip is not recent, or the clock is too early to tell. -/
def Stale (cfg : Cfg) (h : Hist) (t : State) (now : Nat) : Prop :=
  ¬ Recent cfg h t now ∨ now < 7200000 ∨ now < cfg.chain.spacing * 3 * 1000

/-- Applies the events about blocks to a chain (a list of heights and headers, lowest first).  Only the last block can be disconnected, and
only a block at the next height connected. -/
def replay : List (Nat × Header) → List Out → Option (List (Nat × Header))
  | c, [] => some c
  | c, .disconnected n x :: os => if c.getLast? = some (n, x) then replay c.dropLast os else none
  | c, .connected n x :: os => if n = c.length then replay (c ++ [(n, x)]) os else none
  | c, _ :: os => replay c os

/-- Is it an event about a block of the active chain? -/
def Out.isBlock : Out → Bool
  | .connected _ _ | .disconnected _ _ => true
  | _ => false

/-- All outputs of a history, in order. -/
def outputs (h : Hist) : List Out := h.reverse.flatMap (·.2)

/-- The headers presented are imported without an error, and none of the active chain is activated again after it left the chain; or
they leave the active chain as it is. -/
def Clean (cfg : Cfg) (t : State) (op : Op) : Prop :=
  ((∃ r, (Chain.importBlocks cfg.chain t op.batch).2 = .ok r) ∧ Chain.NeverReconnects cfg.chain t t op.batch) ∨
  ((∃ e, (Chain.importBlocks cfg.chain t op.batch).2 = .err e) ∧ (Chain.importBlocks cfg.chain t op.batch).1.iter = t.iter)

/-- A connected peer has a longer chain than we have. -/
def Behind (h : Hist) (t : State) : Prop := ∃ a i, connected a h = some i ∧ t.height < i.height

/-- A peer that does not serve compact filters is connected. -/
def Usable (h : Hist) : Prop := ∃ a i, connected a h = some i ∧ i.filters = false

/-- We are asking for headers. -/
def Asking (cfg : Cfg) (h : Hist) : Prop := ∃ a s, awaiting cfg a h = some s

/-- The peer may be asked for headers with these locators: we connected to it, no request to it is outstanding, and it was not last asked with them. -/
def Candidate (cfg : Cfg) (h : Hist) (locators : List Nat) (a : Nat) : Prop :=
  (∃ i, connected a h = some i ∧ i.outbound = true) ∧ awaiting cfg a h = none ∧ ∀ l, lastAsked a h = some l → l.1 ≠ locators

/-- The headers of the operation give the tree a new tip. -/
def Changed (cfg : Cfg) (t : State) (op : Op) (t' : State) (hash height : Nat) (rv cn : List (Nat × Header)) : Prop :=
  ∃ header, Chain.importBlocks cfg.chain t op.batch = (t', .ok (.tipChanged header hash height rv cn))

/-- Where a request for headers comes from. -/
inductive Requested (cfg : Cfg) (h : Hist) (op : Op) (outs : List Out) (t t' : State) : Nat → Locators → Prop where
  /-- A connected peer has a longer chain, or the tip is stale. -/
  | sync {b : Nat} {hashes : List Nat} (hs : Behind ((op, outs) :: h) t' ∨ Stale cfg ((op, outs) :: h) t' op.time) (hl : Chain.locatorHashes cfg.chain t' t'.height = .ok hashes) (ho : cause op [] = .other ∨ cause op [] = .timer) :
      Requested cfg h op outs t t' b (hashes, 0)
  /-- The peer sent headers that did not change the tip. -/
  | fork {env : Env} {now a : Nat} {hs : List (Header × Chain.Env)} {first : Header × Chain.Env} {hashes : List Nat} (ho : op = .headers env now a hs)
      (hf : hs.head? = some first) (hr : Chain.importBlocks cfg.chain t hs = (t', .ok .tipUnchanged))
      (hl : Chain.locatorHashes cfg.chain t' t'.height = .ok hashes) : Requested cfg h op outs t t' a (hashes, cfg.chain.hash first.1)
  /-- The peer sent as many headers as it can. -/
  | more {env : Env} {now a : Nat} {hs : List (Header × Chain.Env)} {hash height : Nat} {rv cn : List (Nat × Header)} (ho : op = .headers env now a hs)
      (hlen : hs.length = 2000) (hc : Changed cfg t op t' hash height rv cn) : Requested cfg h op outs t t' a ([hash], 0)
  /-- The peer announced a block. -/
  | announced {now a stop : Nat} {items : List Item} {hashes : List Nat} (ho : op = .inv now a items)
      (hs : ((blocksOf items).filter (fun h => !(t.isKnown h))).getLast? = some stop) (ht : t' = t)
      (hl : Chain.locatorHashes cfg.chain t' t'.height = .ok hashes) : Requested cfg h op outs t t' a (hashes, stop)
  /-- Another peer did not answer. -/
  | retry {env : Env} {now a b : Nat} {s : Sent} (ho : op = .timer env now) (hw : awaiting cfg a h = some s) (hd : cfg.timeout ≤ now - s.time)
      (hc : s.cause = .announced ∨ s.cause = .timer) (hne : b ≠ a) : Requested cfg h op outs t t' b s.locators

/-- When we last looked whether we are in sync, by the timer we set then (ten minutes). -/
def looked : Hist → Option Nat
  | [] => none
  | (op, outs) :: h =>
    match op with
    | .init _ now | .timer _ now => if Out.setTimer 600000 ∈ outs then some now else looked h
    | _ => looked h

end Verif.Sync
