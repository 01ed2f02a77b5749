import Verif.Chain.Model

/-!
# Specification vocabulary for the header tree

Everything the property theorems talk about that is not part of the code's API: what a linked path is, the work of a
list of headers, the assumption on hashes, and histories of API calls.
-/

set_option autoImplicit false

namespace Verif.Chain

/-- `Path hash a hs b`: the headers `hs` form a chain on top of the block with hash `a`, ending in the block with
hash `b` (each header names the hash of the one before it as its previous hash). -/
def Path (hash : Header → Nat) (a : Nat) : List Header → Nat → Prop
  | [], b => a = b
  | h :: hs, b => h.prev = a ∧ Path hash (hash h) hs b

instance (hash : Header → Nat) : ∀ (hs : List Header) (a b : Nat), Decidable (Path hash a hs b)
  | [], a, b => inferInstanceAs (Decidable (a = b))
  | h :: hs, a, b => by
    have := instDecidablePath hash hs (hash h) b
    exact inferInstanceAs (Decidable (h.prev = a ∧ Path hash (hash h) hs b))

/-- The active chain as a list of headers, genesis first. -/
def State.headers (s : State) : List Header := s.chain.map (·.header)

/-- Headers above genesis. -/
def State.above (s : State) : List Header := s.tail.map (·.header)

/-- Total proof-of-work of a list of headers. -/
def totalWork (cfg : Cfg) (hs : List Header) : Nat := (hs.map (fun h => cfg.work h.bits)).sum

/-- The hash assumption: among the headers `U` ever presented to the tree there is no cycle of previous-hash links
(as for any hash function for which no cycle was ever found). -/
def Acyclic (cfg : Cfg) (U : Header → Prop) : Prop :=
  ∃ rank : Nat → Nat, ∀ h, U h → rank h.prev < rank (cfg.hash h)

/-- Environment of a call: fair iteration order; with `fail = false` the store does not fail. -/
def EnvOk (fail : Bool) (e : Env) : Prop :=
  e.Fair ∧ (fail = false → e.failRollback = false ∧ e.failPut = false)

/-- States reachable through the public API from a fresh tree with genesis `g`, by any sequence of `import_blocks`,
`extend_tip` that return (with a result or an error) and, in histories without store failures (`fail = false`), restarts
that reload the tree from its store.  Of the store, a restart finds the beginning: after a crash the last headers may not
have been written, or be cut off as damaged (`Verif.Store`, C21).  A call that panics ends the history. -/
inductive Reach (cfg : Cfg) (U : Header → Prop) (g : Header) (fail : Bool) : State → Prop
  | init : Reach cfg U g fail (new cfg g [g])
  | importBlocks {s : State} (hs : List (Header × Env)) :
      Reach cfg U g fail s → (∀ p ∈ hs, U p.1 ∧ EnvOk fail p.2) →
      (importBlocks cfg s hs).2 ≠ .panic → Reach cfg U g fail (importBlocks cfg s hs).1
  | extendTip {s : State} (h : Header) (e : Env) :
      Reach cfg U g fail s → U h → EnvOk fail e →
      (extendTip cfg e s h).2 ≠ .panic → Reach cfg U g fail (extendTip cfg e s h).1
  | restart {s s' : State} {hs : List Header} :
      fail = false → Reach cfg U g fail s → hs <+: s.store → hs ≠ [] → load cfg (new cfg g hs) = .ok s' → Reach cfg U g fail s'

end Verif.Chain
