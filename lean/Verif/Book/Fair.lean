import Verif.Book.Props
import Verif.Cbf.Model
import Verif.Sync.Model
import Verif.Inv.Model
import Verif.Addr.Model
/-!
# C154: what the models of the managers assume of random choices holds of the code's choices

`Draws` are the numbers that the random generator gives and the orders in which hash maps are gone through.  From them, the random choices of the managers are made by the functions of
`Verif.Book.Model`; they then satisfy the assumptions under which the theorems about the managers are proved.
-/

set_option autoImplicit false

namespace Verif.Book

open Verif (AMap)

/-- What is drawn: an index for each pick (a tag tells picks apart), the numbers of each shuffle, and the order of each hash map. -/
structure Draws where
  index : Nat → Nat → Nat
  swaps : Nat → Nat → Nat
  order : {α : Type} → Nat → List α → List α

/-- Numbers are drawn from the ranges asked for, and a hash map gives each entry once. -/
structure Draws.Valid (d : Draws) : Prop where
  index : ∀ tag n, 0 < n → d.index tag n < n
  swaps : ∀ tag, Choices (d.swaps tag)
  order : ∀ {α : Type} tag (l : List α), (d.order tag l).Perm l

variable {α : Type}

/-- A pick among the entries of a map, as `sample` does it: from the map's order. -/
def Draws.pick (d : Draws) {K V : Type} (tag : Nat) (m : List (K × V)) : Option (K × V) := sample (d.order tag m) (d.index tag m.length)

/-- A pick among keys that were filtered before. -/
def Draws.pickKey (d : Draws) (tag : Nat) (l : List Nat) : Option Nat := (d.pick tag (l.map fun k => (k, ()))).map (·.1)

/-- A shuffle, as `shuffled` does it. -/
def Draws.shuffled (d : Draws) (tag : Nat) (l : List α) : List α := shuffle (d.swaps tag) (d.order tag l)

theorem pick_mem {d : Draws} (h : d.Valid) {K V : Type} {tag : Nat} {m : List (K × V)} {x : K × V} (e : d.pick tag m = some x) : x ∈ m :=
  (h.order tag m).mem_iff.mp (C154_match (show sampleWith _ (fun _ _ => true) _ = some x from e)).1

theorem pick_some {d : Draws} (h : d.Valid) {K V : Type} {tag : Nat} {m : List (K × V)} (hm : m ≠ []) : d.pick tag m ≠ none := by
  have hl := (h.order tag m).length_eq
  have hpos : 0 < m.length := List.length_pos_iff.mpr hm
  have hf : (d.order tag m).filter (fun _ => true) = d.order tag m := List.filter_eq_self.mpr fun _ _ => rfl
  refine (C154_some (p := fun _ _ => true) (.inl ?_)).mpr ?_
  · rw [hf, hl]; exact h.index tag m.length hpos
  · obtain ⟨x, hx⟩ := List.exists_mem_of_ne_nil m hm
    exact ⟨x, (h.order tag m).mem_iff.mpr hx, rfl⟩

theorem pickKey_mem {d : Draws} (h : d.Valid) {tag : Nat} {l : List Nat} {a : Nat} (e : d.pickKey tag l = some a) : a ∈ l := by
  unfold Draws.pickKey at e
  rw [Option.map_eq_some_iff] at e
  obtain ⟨x, hx, rfl⟩ := e
  obtain ⟨k, hk, rfl⟩ := List.mem_map.mp (pick_mem h hx)
  exact hk

theorem pickKey_some {d : Draws} (h : d.Valid) {tag : Nat} {l : List Nat} (hl : l ≠ []) : ∃ a, d.pickKey tag l = some a := by
  have := pick_some h (tag := tag) (m := l.map fun k => (k, ())) (by simpa using hl)
  unfold Draws.pickKey
  cases hp : d.pick tag (l.map fun k => (k, ())) with
  | none => exact absurd hp this
  | some x => exact ⟨x.1, rfl⟩

theorem shuffled_perm {d : Draws} (h : d.Valid) (tag : Nat) (l : List α) : (d.shuffled tag l).Perm l := (C154_shuffled _ _).trans (h.order tag l)

/-- The choices of the filter manager (`p2p/src/fsm/cbfmgr.rs:332, 457, 911`). -/
def cbfEnv (d : Draws) (now : Nat) (fail : Bool) : Verif.Cbf.Env where
  now := now
  pick k m := d.pick k m
  shuffle l := d.shuffled 0 l
  order l := d.order 1 l
  fail := fail

/-- The choices of the sync manager (`p2p/src/fsm/syncmgr.rs:479, 571`). -/
def syncEnv (d : Draws) : Verif.Sync.Env where
  order l := d.order 0 l
  shuffle l := d.shuffled 1 l
  pick a l := d.pickKey a l

/-- The choices of the inventory manager (`p2p/src/fsm/invmgr.rs:310`). -/
def invEnv (d : Draws) : Verif.Inv.Env where
  peers l := d.order 0 l
  queue a l := d.order (a + 2) l
  blocks l := d.order 1 l
  pick b l := d.pickKey b l

/-- The choices of the address manager (`p2p/src/fsm/addrmgr.rs:460-500, 526-550`). -/
def addrEnv (d : Draws) : Verif.Addr.Env where
  pick n := d.index 0 n
  ranges l := d.shuffled 0 l
  ips l := d.shuffled 1 l

/-- **C154.** The assumptions of the theorems about the four managers hold of the choices as the code makes them. -/
theorem C154_managers {d : Draws} (h : d.Valid) (now : Nat) (fail : Bool) :
    (cbfEnv d now fail).Fair ∧ (syncEnv d).Legal ∧ (invEnv d).Legal ∧ (addrEnv d).Fair := by
  refine ⟨⟨fun k m x e => pick_mem h e, fun k m hm => ?_, fun l => shuffled_perm h 0 l, fun l => h.order 1 l⟩,
    ⟨fun l => h.order 0 l, fun l => shuffled_perm h 1 l, fun a l b e => pickKey_mem h e, fun a l hl => pickKey_some h hl⟩,
    ⟨fun l => h.order 0 l, fun a l => h.order (a + 2) l, fun l => h.order 1 l, fun b l a e => pickKey_mem h e, fun b l hl => pickKey_some h hl⟩,
    ⟨fun n hn => h.index 0 n hn, fun l => shuffled_perm h 0 l, fun l => shuffled_perm h 1 l⟩⟩
  exact Option.isSome_iff_ne_none.mpr (pick_some h (tag := k) hm)

namespace Scenarios

/-- Draws that are always zero, and maps in their own order. -/
def zeros : Draws := ⟨fun _ _ => 0, fun _ _ => 0, fun _ l => l⟩

theorem zeros_valid : zeros.Valid := ⟨fun _ _ h => h, fun _ i => Nat.zero_le i, fun _ _ => List.Perm.refl _⟩

/-- They move the first element behind the others. -/
example : zeros.shuffled 0 [1, 2, 3] = [3, 1, 2] ∧ zeros.pick 5 [(1, true), (2, false)] = some (1, true) := by decide

end Scenarios

end Verif.Book
