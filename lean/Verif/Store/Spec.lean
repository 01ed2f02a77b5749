import Verif.Store.Model

/-!
# What a header store is supposed to be: a list of headers

The specification is a plain list (genesis first).  `put` appends, `rollback h` keeps the heights `0..h`, everything else
reads the list.
-/

set_option autoImplicit false

namespace Verif.Store

variable {H : Type}

/-- What is needed of the record encoding: fixed size, decoding inverts encoding, every record-sized buffer is the encoding
of something.  Proved for the two record types in use (`C19_*`). -/
structure Codec.Good (c : Codec H) : Prop where
  size_pos : 0 < c.size
  enc_len : ∀ h, (c.enc h).length = c.size
  dec_enc : ∀ h, c.dec (c.enc h) = some h
  enc_dec : ∀ b, b.length = c.size → ∃ h, c.enc h = b

/-- The operations of the `Store` trait. -/
inductive Op (H : Type) where
  | put (hs : List H)
  | rollback (height : Nat)
  | get (height : Nat)
  | len
  | height
  | iter

/-- What an operation answers. -/
inductive Ans (H : Type) where
  | height (r : Res Error Nat)
  | unit (r : Res Error Unit)
  | header (r : Res Error H)
  | items (l : List (Res Error (Nat × H)))
  deriving DecidableEq, Repr

/-- The specification: answer and new list. -/
def specStep (l : List H) : Op H → Ans H × List H
  | .put hs => (.height (.ok (l.length + hs.length - 1)), l ++ hs)
  | .rollback h => (.unit (.ok ()), l.take (h + 1))
  | .get n => (.header (match l[n]? with | some h => .ok h | none => .err .unexpectedEof), l)
  | .len => (.height (.ok l.length), l)
  | .height => (.height (.ok (l.length - 1)), l)
  | .iter => (.items (l.zipIdx.map (fun p => .ok (p.2, p.1))), l)

/-- The specification over a sequence of operations. -/
def specRun (l : List H) : List (Op H) → List (Ans H) × List H
  | [] => ([], l)
  | op :: ops =>
    let (a, l) := specStep l op
    let (as, l) := specRun l ops
    (a :: as, l)

/-- The documented conditions of use: roll-backs go to a height in the store (`io.rs: 186-187`, "behaviour is undefined if
the given height is not contained in the store"), and byte offsets stay below `2^63` (the limit of file offsets). -/
def OpOK (size : Nat) (l : List H) : Op H → Prop
  | .put hs => (l.length + hs.length) * size < 2 ^ 63
  | .rollback h => h < l.length
  | .get n => n * size < 2 ^ 63
  | _ => True

/-- Every operation of a sequence is used as documented. -/
def OpsOK (size : Nat) (l : List H) : List (Op H) → Prop
  | [] => True
  | op :: ops => OpOK size l op ∧ OpsOK size (specStep l op).2 ops

/-! ## Runs of the two implementations -/

/-- The items an iterator yields until it returns `None` for the first time. -/
inductive Yields (c : Codec H) (s : FileStore H) : Iter H → List (Res Error (Nat × H)) → Prop
  | done {it it'} : iterNext c s it = (none, it') → Yields c s it []
  | more {it it' x xs} : iterNext c s it = (some x, it') → Yields c s it' xs → Yields c s it (x :: xs)

/-- One operation on the file store. -/
inductive FileStep (c : Codec H) (checked : Bool) : FileStore H → Op H → Ans H → FileStore H → Prop
  | put {s hs} : FileStep c checked s (.put hs) (.height (.ok (filePut c s hs).1)) (filePut c s hs).2
  | rollback {s h s'} : fileRollback c checked s h = .ok s' → FileStep c checked s (.rollback h) (.unit (.ok ())) s'
  | rollbackErr {s h e} : fileRollback c checked s h = .err e → FileStep c checked s (.rollback h) (.unit (.err e)) s
  | rollbackPanic {s h} : fileRollback c checked s h = .panic → FileStep c checked s (.rollback h) (.unit .panic) s
  | get {s n} : FileStep c checked s (.get n) (.header (fileGet c checked s n)) s
  | len {s} : FileStep c checked s .len (.height (fileLen c s)) s
  | height {s} : FileStep c checked s .height (.height (fileHeight c s)) s
  | iter {s l} : Yields c s fileIter l → FileStep c checked s .iter (.items l) s

/-- A sequence of operations on the file store. -/
inductive FileRun (c : Codec H) (checked : Bool) : FileStore H → List (Op H) → List (Ans H) → FileStore H → Prop
  | nil {s} : FileRun c checked s [] [] s
  | cons {s s' s'' op ops a as} : FileStep c checked s op a s' → FileRun c checked s' ops as s'' →
      FileRun c checked s (op :: ops) (a :: as) s''

/-- One operation on the in-memory store. -/
def memStep (s : MemStore H) : Op H → Ans H × MemStore H
  | .put hs => (.height (.ok (memPut s hs).1), (memPut s hs).2)
  | .rollback h => (.unit (.ok ()), memRollback s h)
  | .get n => (.header (memGet s n), s)
  | .len => (.height (memLen s), s)
  | .height => (.height (memHeight s), s)
  | .iter => (.items ((memIter s).map .ok), s)

/-- A sequence of operations on the in-memory store. -/
def memRun (s : MemStore H) : List (Op H) → List (Ans H) × MemStore H
  | [] => ([], s)
  | op :: ops =>
    let (a, s) := memStep s op
    let (as, s) := memRun s ops
    (a :: as, s)

/-! ## Crashes -/

/-- The states in which a crash can leave the file while `rollback` (one atomic truncation) or `put` (an append that may be
cut at any byte) is running. -/
inductive CrashState (c : Codec H) (checked : Bool) (s : FileStore H) : Op H → Bytes → Prop
  | before {op} : CrashState c checked s op s.bytes
  | rollback {h s'} : fileRollback c checked s h = .ok s' → CrashState c checked s (.rollback h) s'.bytes
  | put {hs} (k : Nat) : CrashState c checked s (.put hs) (s.bytes ++ (hs.flatMap c.enc).take k)

end Verif.Store
