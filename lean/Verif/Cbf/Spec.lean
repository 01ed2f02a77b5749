import Verif.Cbf.Model

/-!
# Specification vocabulary for compact filters
-/

set_option autoImplicit false

namespace Verif.Cbf

/-- The filter-header chain rule of BIP 157: the entry at height 0 is the network's genesis filter header (the hash of its
filter hash and the zero header), every other header is the hash of its filter hash and the header one height below. -/
structure FilterChain (p : Params) (es : List Entry) : Prop where
  genesis : ∃ g, es[0]? = some g ∧ g.2 = p.genHeader ∧ g.2 = p.filterHeader g.1 zeroHeader
  linked : ∀ h a b, es[h]? = some a → es[h + 1]? = some b → b.2 = p.filterHeader b.1 a.2

/-- The filter header one height below `h` in a chain (zero below genesis). -/
def below (es : List Entry) : Nat → Option Nat
  | 0 => some zeroHeader
  | h + 1 => es[h]?.map (·.2)

/-- Filter `f` is the one the filter-header chain commits to at height `h`. -/
def Committed (p : Params) (es : List Entry) (h : Nat) (f : Filter) : Prop :=
  ∃ hdr prev, es[h]?.map (·.2) = some hdr ∧ below es h = some prev ∧ p.filterHeader (p.filterHash f) prev = hdr

/-- Histories of the filter manager: any calls with any trees and environments, crashes ending the history; restarts reload
the filter headers from the store, and — unless the store never failed (`fail = false`) — verify them.  Of the store, a
restart finds the beginning: after a crash the last headers may not have been written, or be cut off as damaged. -/
inductive Reach (p : Params) (fail : Bool) : Mgr → Prop
  | init (f : FilterHeaders) (cacheSize : Nat) :
      FilterChain p f.all → f.store = f.all → Reach p fail (Mgr.new f cacheSize)
  | step {m m' : Mgr} (e : Env) (t : Tree) (op : Op) :
      Reach p fail m → (fail = false → e.fail = false) → m.step p e t op = .ok m' → Reach p fail m'
  | restart {m : Mgr} {f : FilterHeaders} {es : List Entry} (stop : Nat → Bool) (cacheSize : Nat) :
      Reach p fail m → es <+: m.filters.store → loadWith es stop = .ok f →
      (fail = false ∨ verifyWith p stop f = .ok ()) → Reach p fail (Mgr.new f cacheSize)

/-! ### Filter cache -/

/-- Calls on the cache. -/
inductive CacheOp (T : Type) where
  | push (height : Nat) (f : T)
  | rollback (height : Nat)

/-- One call. -/
def cacheStep {T : Type} (len : T → Nat) (c : Cache T) : CacheOp T → Res Unit (Cache T)
  | .push h f => c.push len h f >>= fun r => .ok r.2
  | .rollback h => c.rollback len h

/-- A sequence of calls. -/
def cacheRun {T : Type} (len : T → Nat) : Cache T → List (CacheOp T) → Res Unit (Cache T)
  | c, [] => .ok c
  | c, op :: ops => cacheStep len c op >>= fun c => cacheRun len c ops

/-- The filter last pushed at height `h` by the calls (most recent call first) and not rolled back since.  Pushes of filters
larger than the whole cache are refused. -/
def lastPushed {T : Type} (len : T → Nat) (cap : Nat) (h : Nat) : List (CacheOp T) → Option T
  | [] => none
  | .push h' f :: ops => if h' = h ∧ len f ≤ cap then some f else lastPushed len cap h ops
  | .rollback h' :: ops => if h' < h then none else lastPushed len cap h ops

/-- Bytes really held. -/
def Cache.bytes {T : Type} (len : T → Nat) (c : Cache T) : Nat := (c.cache.map (fun x => len x.2)).sum

/-! ### Scanning -/

/-- The filter matches what is watched: one of the scripts is in the filter or, failing that, all outputs of one of the watched
transactions are.  A filter that cannot be decoded matches nothing. -/
def Matches (p : Params) (watch : List Nat) (txs : AMap Nat (List Nat)) (f : Filter) (hash : Nat) : Prop :=
  (watch ≠ [] ∧ p.matchAny f hash watch = some true) ∨
  ((watch = [] ∨ p.matchAny f hash watch = some false) ∧ ∃ tx ∈ txs, p.matchAll f hash tx.2 = some true)

/-- Height of a `FilterProcessed` event. -/
def processedHeight : Ev → Option Nat
  | .filterProcessed _ h _ _ _ => some h
  | _ => none

/-- Events of an output log. -/
def eventsOf (o : List Out) : List Ev := o.filterMap (fun | .event e => some e | _ => none)

/-- Heights of the `FilterProcessed` events of a log, in order. -/
def processedHeights (o : List Out) : List Nat := (eventsOf o).filterMap processedHeight

end Verif.Cbf
