import Mathlib.Data.Nat.Basic
import Verif.Wallet.Props
/-!
# The hardware device of the wallet: wallet/src/wallet/hw.rs (C152)

Device and decoding of addresses are parameters (`World`), which may differ from one call to the next: devices are plugged in and pulled out.  A handle of an opened device is a
number; every plugging in gives a new one.
-/

set_option autoImplicit false

namespace Verif.Wallet.Hardware

/-- `Error` (hw.rs:10-22).  `Open` is never made by the code. -/
inductive Err where
  | noDevice
  | address
  | path
  | device
  deriving DecidableEq, Repr

/-- What is outside, at the time of a call. -/
structure World where
  /-- `coldcard::detect` : the devices that are plugged in, or an error. -/
  detect : Option (List Nat)
  /-- `open` of a detected device: a handle, or an error. -/
  opens : Nat → Option Nat
  /-- `coldcard::protocol::DerivationPath::new` of a path in text form: whether the device's library accepts it. -/
  accepts : List Nat → Bool
  /-- `Coldcard::address` : what the device with this handle answers for a path. -/
  answer : Nat → List Nat → Option String
  /-- `Address::from_str`. -/
  decode : String → Option Nat

/-- `Hw` (hw.rs:24-29). -/
structure Hw where
  device : Option Nat
  path : List Nat
  deriving DecidableEq, Repr

/-- `Hw::new` (hw.rs:32-37). -/
def Hw.new (path : List Nat) : Hw := ⟨none, path⟩

/-- `reconnect` (hw.rs:46-53): the first detected device is opened; `get_or_insert` keeps the handle that is there. -/
def Hw.reconnect (hw : Hw) (w : World) : Except Err Nat × Hw :=
  match w.detect with
  | none => (.error .device, hw)
  | some [] => (.error .noDevice, hw)
  | some (s :: _) =>
    match w.opens s with
    | none => (.error .device, hw)
    | some d =>
      match hw.device with
      | some d' => (.ok d', hw)
      | none => (.ok d, { hw with device := some d })

/-- `connect` (hw.rs:39-44). -/
def Hw.connect (hw : Hw) (w : World) : Except Err Nat × Hw :=
  match hw.device with
  | some d => (.ok d, hw)
  | none => hw.reconnect w

/-- The state of `normal_children().enumerate()` (hw.rs:67-68): the counter and the next child.  There are 2³¹ normal children
(rust-bitcoin 0.29, `util/bip32.rs: DerivationPathIterator, ChildNumber::increment`). -/
structure Iter where
  count : Nat
  child : Option Nat

/-- `next` of it. -/
def Iter.next (it : Iter) : Option (Nat × Nat) × Iter :=
  match it.child with
  | none => (none, it)
  | some i => (some (it.count, i), ⟨it.count + 1, if i + 1 < 2 ^ 31 then some (i + 1) else none⟩)

/-- `skip(n)` (hw.rs:69). -/
def Iter.skip : Nat → Iter → Iter
  | 0, it => it
  | n + 1, it => Iter.skip n it.next.2

/-- `take(n)` (hw.rs:70): the pairs of counter and child the loop runs over. -/
def Iter.take : Nat → Iter → List (Nat × Nat)
  | 0, _ => []
  | n + 1, it =>
    match it.next with
    | (none, _) => []
    | (some p, it') => p :: Iter.take n it'

/-- The loop (hw.rs:66-82). -/
def ask (w : World) (d : Nat) (path : List Nat) : List (Nat × Nat) → Except Err (List (Nat × Nat))
  | [] => .ok []
  | (ix, child) :: l =>
    if w.accepts (path ++ [child]) then
      match w.answer d (path ++ [child]) with
      | none => .error .device
      | some text =>
        match w.decode text with
        | none => .error .address
        | some a =>
          match ask w d path l with
          | .error e => .error e
          | .ok r => .ok ((ix, a) :: r)
    else .error .path

/-- `request_addresses` (hw.rs:55-84) for the indexes from `s` to below `e`; `Range::len` is zero if `e ≤ s`. -/
def Hw.request (hw : Hw) (w : World) (s e : Nat) : Except Err (List (Nat × Nat)) × Hw :=
  match hw.connect w with
  | (.error x, hw') => (.error x, hw')
  | (.ok d, hw') => (ask w d hw.path (Iter.take (e - s) (Iter.skip s ⟨0, some 0⟩)), hw')

/-- What the wallet does with the device: the request at its start (wallet.rs:107), and the first function key (wallet.rs:205-209), whose error ends the program. -/
inductive Use where
  | request (s e : Nat)
  | key

/-- One use in one world. -/
def Hw.use (hw : Hw) (w : World) : Use → Hw
  | .request s e => (hw.request w s e).2
  | .key => (hw.connect w).2

/-- A history of uses, each in a world of its own. -/
def Hw.uses (hw : Hw) : List (World × Use) → Hw
  | [] => hw
  | (w, u) :: l => (hw.use w u).uses l

/-! ## Specification -/

/-- The device with handle `d` gives the address `a` for the child `i` of `path`. -/
def Gives (w : World) (d : Nat) (path : List Nat) (i a : Nat) : Prop :=
  w.accepts (path ++ [i]) = true ∧ ∃ text, w.answer d (path ++ [i]) = some text ∧ w.decode text = some a

/-- A handle is dead when its device answers nothing any more (it was pulled out). -/
def Dead (w : World) (d : Nat) : Prop := ∀ path, w.answer d path = none

/-! ## Lemmas -/

theorem skip_none : ∀ (n c : Nat), Iter.skip n ⟨c, none⟩ = ⟨c, none⟩
  | 0, _ => rfl
  | n + 1, c => skip_none n c

theorem skip_some : ∀ (n i : Nat), i + n < 2 ^ 31 → Iter.skip n ⟨i, some i⟩ = ⟨i + n, some (i + n)⟩
  | 0, _, _ => rfl
  | n + 1, i, h => by
    have h1 : i + 1 < 2 ^ 31 := by omega
    simp only [Iter.skip, Iter.next, if_pos h1]
    rw [skip_some n (i + 1) (by omega), show i + 1 + n = i + (n + 1) by omega]

theorem skip_past : ∀ (n i : Nat), i < 2 ^ 31 → 2 ^ 31 ≤ i + n → ∃ c, Iter.skip n ⟨i, some i⟩ = ⟨c, none⟩
  | 0, i, h, h' => absurd h' (by omega)
  | n + 1, i, h, h' => by
    simp only [Iter.skip, Iter.next]
    by_cases h1 : i + 1 < 2 ^ 31
    · rw [if_pos h1]; exact skip_past n (i + 1) h1 (by omega)
    · rw [if_neg h1]; exact ⟨_, skip_none n _⟩

theorem take_none (n c : Nat) : Iter.take n ⟨c, none⟩ = [] := by cases n <;> rfl

theorem take_some : ∀ (n i : Nat), i < 2 ^ 31 → Iter.take n ⟨i, some i⟩ = (List.range' i (min n (2 ^ 31 - i))).map fun j => (j, j)
  | 0, i, _ => by simp [Iter.take]
  | n + 1, i, h => by
    simp only [Iter.take, Iter.next]
    by_cases h1 : i + 1 < 2 ^ 31
    · rw [if_pos h1, take_some n (i + 1) h1, show min (n + 1) (2 ^ 31 - i) = min n (2 ^ 31 - (i + 1)) + 1 by omega]
      rfl
    · rw [if_neg h1, take_none, show min (n + 1) (2 ^ 31 - i) = 1 by omega]
      rfl

/-- The loop runs over the indexes of the range that are below 2³¹, in order; each comes with the child of the same number. -/
theorem loop_indexes (s e : Nat) : Iter.take (e - s) (Iter.skip s ⟨0, some 0⟩) = (List.range' s (min e (2 ^ 31) - s)).map fun j => (j, j) := by
  by_cases h : s < 2 ^ 31
  · have := skip_some s 0 (by omega)
    rw [this, Nat.zero_add, take_some _ _ h]
    congr 2
    omega
  · obtain ⟨c, hc⟩ := skip_past s 0 (by decide) (by omega)
    rw [hc, take_none, show min e (2 ^ 31) - s = 0 by omega]
    rfl

theorem ask_ok {w : World} {d : Nat} {path : List Nat} : ∀ {l : List Nat} {r : List (Nat × Nat)},
    ask w d path (l.map fun j => (j, j)) = .ok r ↔ r.map (·.1) = l ∧ ∀ p ∈ r, Gives w d path p.1 p.2
  | [], r => by
    constructor
    · intro h
      simp only [List.map_nil, ask, Except.ok.injEq] at h
      subst h
      simp
    · rintro ⟨h, -⟩
      rw [List.map_eq_nil_iff] at h
      subst h; rfl
  | i :: l, r => by
    constructor
    · intro h
      simp only [List.map_cons, ask] at h
      split at h
      · rename_i ha
        split at h
        · exact absurd h (by simp)
        · rename_i text ht
          split at h
          · exact absurd h (by simp)
          · rename_i a hd
            split at h
            · exact absurd h (by simp)
            · rename_i r' hr
              rw [Except.ok.injEq] at h
              subst h
              obtain ⟨h1, h2⟩ := ask_ok.mp hr
              refine ⟨by rw [List.map_cons, h1], fun p hp => ?_⟩
              rcases List.mem_cons.mp hp with rfl | hp
              · exact ⟨ha, text, ht, hd⟩
              · exact h2 p hp
      · exact absurd h (by simp)
    · rintro ⟨h, hg⟩
      cases r with
      | nil => exact absurd h (by simp)
      | cons p r =>
        rw [List.map_cons, List.cons.injEq] at h
        obtain ⟨rfl, hl⟩ := h
        obtain ⟨ha, text, ht, hd⟩ := hg p (by simp)
        have := (ask_ok (w := w) (d := d) (path := path) (l := l) (r := r)).mpr ⟨hl, fun q hq => hg q (by simp [hq])⟩
        simp only [List.map_cons, ask, ha, if_true, ht, hd, this]

theorem reconnect_path (hw : Hw) (w : World) : (hw.reconnect w).2.path = hw.path := by
  unfold Hw.reconnect
  split
  · rfl
  · rfl
  · split
    · rfl
    · split <;> rfl

theorem connect_path (hw : Hw) (w : World) : (hw.connect w).2.path = hw.path := by
  unfold Hw.connect
  split
  · rfl
  · exact reconnect_path hw w

theorem connect_device {hw : Hw} {w : World} {d : Nat} (h : (hw.connect w).1 = .ok d) : (hw.connect w).2.device = some d := by
  unfold Hw.connect at *
  split at h
  · rename_i d' hd
    simp only [Except.ok.injEq] at h
    subst h
    exact hd
  · rename_i hd
    unfold Hw.reconnect at *
    split at h
    · exact absurd h (by simp)
    · exact absurd h (by simp)
    · rename_i s t hs
      split at h
      · exact absurd h (by simp)
      · rename_i d1 ho
        rw [hd] at h
        simp only [Except.ok.injEq] at h
        subst h
        simp [hd]

/-- A connected device stays the one that is used, whatever is done. -/
theorem use_device {hw : Hw} {d : Nat} (h : hw.device = some d) (w : World) (u : Use) : (hw.use w u).device = some d ∧ (hw.use w u).path = hw.path := by
  cases u <;> simp [Hw.use, Hw.request, Hw.connect, h]

theorem uses_device {d : Nat} : ∀ {l : List (World × Use)} {hw : Hw}, hw.device = some d → (hw.uses l).device = some d
  | [], _, h => h
  | (w, u) :: l, _, h => uses_device (l := l) (use_device h w u).1

/-! ## C152 -/

/-- **C152.** If a request for the addresses with indexes from `s` to below `e` is answered, then there is exactly one address for each of these indexes (of those that a path can have,
which are below 2³¹), in ascending order, and each is the one that the connected device gives for the child with this index of the configured path. -/
theorem C152_addresses {hw hw' : Hw} {w : World} {s e : Nat} {l : List (Nat × Nat)} (h : hw.request w s e = (.ok l, hw')) :
    l.map (·.1) = List.range' s (min e (2 ^ 31) - s) ∧
    ∃ d, hw'.device = some d ∧ ∀ p ∈ l, Gives w d hw.path p.1 p.2 := by
  unfold Hw.request at h
  split at h
  · simp at h
  · rename_i d hw1 hc
    rw [Prod.mk.injEq] at h
    obtain ⟨h1, rfl⟩ := h
    rw [loop_indexes, ask_ok] at h1
    refine ⟨h1.1, d, ?_, h1.2⟩
    have := connect_device (hw := hw) (w := w) (d := d) (by rw [hc])
    rwa [hc] at this

/-- **C152.** A request is answered if a device is or can be connected and gives an address for each index; otherwise there are no addresses at all but an error. -/
theorem C152_answered {hw : Hw} {w : World} {s e : Nat} :
    (∃ l, (hw.request w s e).1 = .ok l) ↔
      ∃ d, (hw.connect w).1 = .ok d ∧ ∀ i, s ≤ i → i < e → i < 2 ^ 31 → ∃ a, Gives w d hw.path i a := by
  constructor
  · rintro ⟨l, h⟩
    unfold Hw.request at h
    split at h
    · simp at h
    · rename_i d hw1 hc
      dsimp only at h
      rw [loop_indexes, ask_ok] at h
      refine ⟨d, by rw [hc], fun i h1 h2 h3 => ?_⟩
      have hm : i ∈ l.map (·.1) := by
        rw [h.1, List.mem_range'_1]
        omega
      obtain ⟨p, hp, rfl⟩ := List.mem_map.mp hm
      exact ⟨p.2, h.2 p hp⟩
  · rintro ⟨d, hc, hg⟩
    have key : ∀ l : List Nat, (∀ i ∈ l, ∃ a, Gives w d hw.path i a) → ∃ r : List (Nat × Nat), r.map (·.1) = l ∧ ∀ p ∈ r, Gives w d hw.path p.1 p.2 := by
      intro l
      induction l with
      | nil => exact fun _ => ⟨[], rfl, by simp⟩
      | cons i l ih =>
        intro hl
        obtain ⟨r, h1, h2⟩ := ih fun j hj => hl j (by simp [hj])
        obtain ⟨a, ha⟩ := hl i (by simp)
        refine ⟨(i, a) :: r, by rw [List.map_cons, h1], fun p hp => ?_⟩
        rcases List.mem_cons.mp hp with rfl | hp
        · exact ha
        · exact h2 p hp
    obtain ⟨r, hr⟩ := key (List.range' s (min e (2 ^ 31) - s)) fun i hi => by
      rw [List.mem_range'_1] at hi
      exact hg i hi.1 (by omega) (by omega)
    refine ⟨r, ?_⟩
    unfold Hw.request
    split
    · rename_i x hw1 hx
      rw [hx] at hc; simp at hc
    · rename_i d1 hw1 hx
      rw [hx] at hc
      simp only [Except.ok.injEq] at hc
      subst hc
      rw [loop_indexes]
      exact ask_ok.mpr hr

/-- **C152.** The wallet's first start: if the device answers the request for the first sixteen addresses, the wallet watches sixteen addresses, those of the children 0 to 15 of the
path, and stores them with these indexes, provided that the device gives different addresses for different children. -/
theorem C152_first_start {path : List Nat} {hw' : Hw} {w : World} {l : List (Nat × Nat)} (h : (Hw.new path).request w 0 16 = (.ok l, hw')) :
    l.length = 16 ∧ (Verif.Wallet.start [] (some l)).2 = l.map (·.2) ∧
    (∃ d, ∀ i, i < 16 → ∃ a ∈ (Verif.Wallet.start [] (some l)).2, Gives w d path i a) ∧
    ((l.map (·.2)).Nodup → (Verif.Wallet.start [] (some l)).1 = l.map fun p => ⟨p.2, p.1⟩) := by
  obtain ⟨h1, d, -, h2⟩ := C152_addresses h
  refine ⟨?_, rfl, ⟨d, fun i hi => ?_⟩, fun hn => ?_⟩
  · have := congrArg List.length h1
    simpa using this
  rotate_left
  · simp only [Verif.Wallet.start, List.isEmpty_nil, if_true]
    rw [Verif.Wallet.addAll_append l [] hn (by rw [h1]; exact List.nodup_range') (by simp)]
    rfl
  · have hm : i ∈ l.map (·.1) := by rw [h1, List.mem_range'_1]; omega
    obtain ⟨p, hp, rfl⟩ := List.mem_map.mp hm
    exact ⟨p.2, List.mem_map.mpr ⟨p, hp, rfl⟩, h2 p hp⟩

/-- **C152.** The first function key does not end the program exactly if a device was connected before, or one is plugged in and can be opened.  (Missing: without a device it does end the
program; see `Scenarios.C152_key_counterexample`.) -/
theorem C152_key_partial (hw : Hw) (w : World) :
    (∃ d, (hw.connect w).1 = .ok d) ↔ hw.device ≠ none ∨ ∃ s l d, w.detect = some (s :: l) ∧ w.opens s = some d := by
  unfold Hw.connect
  cases hd : hw.device with
  | some d => simp
  | none =>
    unfold Hw.reconnect
    rw [hd]
    cases hw1 : w.detect with
    | none => simp
    | some l =>
      cases l with
      | nil => simp
      | cons s l =>
        cases ho : w.opens s <;> simp [ho]

/-- **C152.** Once a device was connected and pulled out, no request for addresses succeeds any more, whatever was done before and whatever is plugged in: the handle of the old device is
kept, also by `reconnect`. -/
theorem C152_stale {hw : Hw} {d : Nat} (h : hw.device = some d) (l : List (World × Use)) {w : World} (hdead : Dead w d) {s e : Nat} (hse : s < e) (hs : s < 2 ^ 31) :
    (∀ r, ((hw.uses l).request w s e).1 ≠ .ok r) ∧ ((hw.uses l).connect w).1 = .ok d ∧ ((hw.uses l).reconnect w).2.device = some d := by
  have hd := uses_device (l := l) h
  have hc : ((hw.uses l).connect w).1 = .ok d := by unfold Hw.connect; rw [hd]
  refine ⟨fun r hr => ?_, hc, ?_⟩
  · obtain ⟨d', h1, h2⟩ := C152_answered.mp ⟨r, hr⟩
    rw [hc, Except.ok.injEq] at h1
    subst h1
    obtain ⟨a, -, text, ht, -⟩ := h2 s (Nat.le_refl s) hse hs
    rw [hdead] at ht
    simp at ht
  · unfold Hw.reconnect
    split
    · exact hd
    · exact hd
    · split
      · exact hd
      · rw [hd]; exact hd

namespace Scenarios

/-- One device is plugged in, with handle `d`; its addresses are numbers made of the last part of the path. -/
def world (d : Nat) : World where
  detect := some [7]
  opens _ := some d
  accepts _ := true
  answer d' p := if d' = d then some (String.ofList (List.replicate (p.getLast?.getD 0) 'a')) else none
  decode t := some (100 + t.length)

/-- No device. -/
def empty : World := { world 0 with detect := some [], answer := fun _ _ => none }

/-- The path of the first account of the test network. -/
def path : List Nat := [84, 1, 0, 0]

/-- The hypotheses of `C152_addresses` and `C152_first_start` are met. -/
example : ∃ hw', (Hw.new path).request (world 1) 0 16 = (.ok ((List.range 16).map fun i => (i, 100 + i)), hw') := ⟨⟨some 1, path⟩, by decide +kernel⟩

/-- A range in the middle, and one that is turned round. -/
example : ((Hw.new path).request (world 1) 3 6).1 = .ok [(3, 103), (4, 104), (5, 105)] ∧ ((Hw.new path).request (world 1) 6 3).1 = .ok [] := by decide +kernel

/-- **C152** does not hold of the first function key: without a device, it ends the program with an error. -/
theorem C152_key_counterexample : ((Hw.new path).connect empty).1 = .error .noDevice := by decide

/-- **C152** does not hold after a device is plugged in again: the device (handle 1) is connected, pulled out and plugged in again (handle 2), and then requests fail, although a
device that is connected then for the first time answers them. -/
theorem C152_replug_counterexample :
    (((Hw.new path).uses [(world 1, .key)]).request (world 2) 0 16).1 = .error .device ∧
    (((Hw.new path).uses [(world 1, .key)]).reconnect (world 2)).2.device = some 1 ∧
    ((Hw.new path).request (world 2) 0 16).1 = .ok ((List.range 16).map fun i => (i, 100 + i)) := by decide +kernel

/-- The hypotheses of `C152_stale` are met. -/
example : ((Hw.new path).use (world 1) .key).device = some 1 ∧ Dead (world 2) 1 := ⟨rfl, fun _ => rfl⟩

end Scenarios

end Verif.Wallet.Hardware
