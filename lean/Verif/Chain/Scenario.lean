import Verif.Chain.Spec

/-!
# Concrete scenarios used to show that the hypotheses of the property theorems are met by non-trivial cases

In the toy configuration the hash of a header is its nonce, the work of a header is its `bits`, every target is 1000 and
every hash meets it.
-/

set_option autoImplicit false

namespace Verif.Chain.Scenario

/-- Toy configuration (a network other than mainnet, no checkpoints). -/
def cfg : Cfg where
  hash h := h.nonce
  hashInt _ := 0
  target _ := 1000
  compact _ := 0
  work b := b
  mainnet := false
  allowMin := false
  noRetarget := false
  powLimit := 1000
  powLimitBits := 0
  interval := 2016
  timespan := 1209600
  spacing := 600
  genesisHash := 1
  checkpoints := []
  checked := false

/-- The same on mainnet. -/
def cfgMain : Cfg := { cfg with mainnet := true }

/-- A header: its nonce (= hash), parent, time and bits (= work). -/
def mk (n p t b : Nat) : Header := ⟨1, p, 0, t, b, n⟩

/-- Genesis. -/
def g : Header := mk 1 0 100 1

/-- Headers presented in the scenarios: parents have smaller hashes. -/
def U (h : Header) : Prop := h.prev < h.nonce

instance (h : Header) : Decidable (U h) := inferInstanceAs (Decidable (h.prev < h.nonce))

theorem acyclic : Acyclic cfg U := ⟨id, fun _ h => h⟩

theorem acyclicMain : Acyclic cfgMain U := ⟨id, fun _ h => h⟩

/-- Environment: iteration in insertion order, clock at one million seconds, store working. -/
def e : Env := ⟨id, 1000000, false, false⟩

/-- Environment iterating the other way round. -/
def eRev : Env := ⟨List.reverse, 1000000, false, false⟩

theorem eOk (fail : Bool) : EnvOk fail e := ⟨fun _ => .rfl, fun _ => ⟨rfl, rfl⟩⟩

theorem eRevOk (fail : Bool) : EnvOk fail eRev := ⟨fun l => l.reverse_perm, fun _ => ⟨rfl, rfl⟩⟩

/-- Branch A: two blocks. -/
def a1 : Header := mk 11 1 200 10
/-- See `a1`. -/
def a2 : Header := mk 12 11 300 10
/-- See `a1`. -/
def a3 : Header := mk 13 12 400 10

/-- Branch B: three blocks forking off genesis. -/
def b1 : Header := mk 21 1 201 10
/-- See `b1`. -/
def b2 : Header := mk 22 21 301 10
/-- See `b1`. -/
def b3 : Header := mk 23 22 401 10

/-- Tree with A active and two stale headers of B. -/
def sAB : State := (importBlocks cfg (new cfg g [g]) [(a1, e), (a2, e), (b1, e), (b2, eRev)]).1

theorem reachAB (fail : Bool) : Reach cfg U g fail sAB := by
  refine Reach.importBlocks _ .init ?_ (by decide)
  intro p hp
  simp only [List.mem_cons, List.not_mem_nil, or_false] at hp
  rcases hp with rfl | rfl | rfl | rfl
  · exact ⟨by decide, eOk _⟩
  · exact ⟨by decide, eOk _⟩
  · exact ⟨by decide, eOk _⟩
  · exact ⟨by decide, eRevOk _⟩

/-- The active chain is A, with both headers of B known and stale. -/
example : sAB.headers = [g, a1, a2] ∧ sAB.orphans.keys.length = 2 := by decide

end Verif.Chain.Scenario
