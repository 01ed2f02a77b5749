import Verif.Base.Res
import Mathlib.Data.List.Sort

/-!
# Network-adjusted time and timers

`common/src/block/time.rs` (`AdjustedTime`), `net/src/time.rs` (`LocalTime`, `LocalDuration`) and `net/poll/src/time.rs`
(`TimeoutManager`).
-/

set_option autoImplicit false

namespace Verif.Time

/-! ## `AdjustedTime`: common/src/block/time.rs -/

/-- `MAX_TIME_ADJUSTMENT` (common/src/block/time.rs:12), in seconds. -/
def maxTimeAdjustment : Int := 4200

/-- `MIN_TIME_SAMPLES` (common/src/block/time.rs:23). -/
def minTimeSamples : Nat := 5

/-- `MAX_TIME_SAMPLES` (common/src/block/time.rs:26). -/
def maxTimeSamples : Nat := 200

/-- The least `i64`. -/
def i64Min : Int := -9223372036854775808

/-- `i64::abs`: of the least value it panics with overflow checks and is that value itself without. -/
def absI64 (checked : Bool) (x : Int) : Res Unit Int :=
  if x = i64Min then (if checked then .panic else .ok x) else .ok (x.natAbs : Int)

/-- `AdjustedTime` (common/src/block/time.rs:141-151).  Local time is in seconds here (only `block_time` is read from it). -/
structure Adjusted (K : Type) where
  sources : List K
  samples : List Int
  offset : Int
  localTime : Nat
  deriving DecidableEq, Repr

/-- `new` (common/src/block/time.rs:176-190). -/
def Adjusted.new {K : Type} (localTime : Nat) : Adjusted K := ⟨[], [0], 0, localTime⟩

/-- The new offset (common/src/block/time.rs:213-238), given all samples.  `sort_unstable` on integers is sorting. -/
def Adjusted.adjust (checked : Bool) (samples : List Int) (offset : Int) : Res Unit Int :=
  let offsets := samples.insertionSort (· ≤ ·)
  let count := offsets.length
  if count < minTimeSamples then .ok offset
  else if count % 2 = 1 then
    match offsets[count / 2]? with
    | none => .panic
    | some median =>
      absI64 checked median >>= fun a =>
      .ok (if a ≤ maxTimeAdjustment then median else 0)
  else .ok offset

/-- `record_offset` (common/src/block/time.rs:193-243). -/
def Adjusted.record {K : Type} [DecidableEq K] (checked : Bool) (a : Adjusted K) (source : K) (sample : Int) :
    Res Unit (Adjusted K) :=
  if a.sources.length = maxTimeSamples then .ok a
  else if source ∈ a.sources then .ok a
  else
    let samples := a.samples ++ [sample]
    Adjusted.adjust checked samples a.offset >>= fun o =>
    .ok { a with sources := a.sources ++ [source], samples := samples, offset := o }

/-- `set_local_time` (common/src/block/time.rs:267-269). -/
def Adjusted.setLocal {K : Type} (a : Adjusted K) (t : Nat) : Adjusted K := { a with localTime := t }

/-- `from` (common/src/block/time.rs:251-259): `u32` arithmetic; `as BlockTime` keeps the low 32 bits. -/
def Adjusted.from {K : Type} (checked : Bool) (a : Adjusted K) (time : Nat) : Res Unit Nat :=
  if 0 < a.offset then
    let d := a.offset.toNat % 2 ^ 32
    if time + d < 2 ^ 32 then .ok (time + d) else if checked then .panic else .ok ((time + d) % 2 ^ 32)
  else
    let d := a.offset.natAbs % 2 ^ 32
    if d ≤ time then .ok (time - d) else if checked then .panic else .ok (time + 2 ^ 32 - d)

/-- `get` (common/src/block/time.rs:262-264); the local time as seconds in 32 bits (`block_time`, 120-122). -/
def Adjusted.get {K : Type} (checked : Bool) (a : Adjusted K) : Res Unit Nat := a.from checked (a.localTime % 2 ^ 32)

/-! ## `TimeoutManager`: net/poll/src/time.rs

Times and durations are milliseconds (`u128`, taken as unbounded: `LocalTime`, net/src/time.rs:7-12). -/

/-- `LocalTime::diff`, net/src/time.rs:61-67. -/
def diff (a b : Nat) : Nat := if b < a then a - b else b - a

/-- `TimeoutManager` (net/poll/src/time.rs:5-8). -/
structure Timers (K : Type) where
  timeouts : List (K × Nat)
  threshold : Nat
  deriving DecidableEq, Repr

/-- `register` (net/poll/src/time.rs:53-68).  The unstable sort (latest first) may order equal times in any way: `sort` is a parameter. -/
def Timers.register {K : Type} (sort : List (K × Nat) → List (K × Nat)) (m : Timers K) (key : K) (time : Nat) :
    Bool × Timers K :=
  if m.timeouts.any (fun x => diff x.2 time < m.threshold) then (false, m)
  else (true, { m with timeouts := sort (m.timeouts ++ [(key, time)]) })

/-- What is known about `sort_unstable_by(|(_, a), (_, b)| b.cmp(a))`. -/
structure SortsDesc {K : Type} (sort : List (K × Nat) → List (K × Nat)) : Prop where
  perm : ∀ l, (sort l).Perm l
  sorted : ∀ l, (sort l).Pairwise (fun a b => b.2 ≤ a.2)

/-- `next` (net/poll/src/time.rs:92-102). -/
def Timers.next {K : Type} (m : Timers K) (now : Nat) : Option Nat :=
  m.timeouts.getLast?.map (fun x => if now ≤ x.2 then x.2 - now else 0)

/-- The loop of `wake` (net/poll/src/time.rs:127-134), on the reversed list (`pop` takes the last). -/
def wakeLoop {K : Type} (now : Nat) : List (K × Nat) → List K × List (K × Nat)
  | [] => ([], [])
  | (k, t) :: rest =>
    if t ≤ now then
      let r := wakeLoop now rest
      (k :: r.1, r.2)
    else ([], (k, t) :: rest)

/-- `wake` (net/poll/src/time.rs:124-136): the keys added to `woken`. -/
def Timers.wake {K : Type} (m : Timers K) (now : Nat) : List K × Timers K :=
  let r := wakeLoop now m.timeouts.reverse
  (r.1, { m with timeouts := r.2.reverse })

end Verif.Time
