import Verif.PeerStore.Props

/-!
# The peer address file: scenarios

A simple text format that meets the assumptions, concrete cases, and counterexamples.
-/

set_option autoImplicit false

namespace Verif.PeerStore.Scenario
open Verif.PeerStore

/-! ## A text format: every value is preceded by a tag and, where needed, its length -/

/-- A reader returns what it read and the rest. -/
abbrev Reader (α : Type) := Str → Option (α × Str)

/-- The reader reads what the writer wrote, and more input does not matter. -/
structure Codec {α : Type} (enc : α → Str) (dec : Reader α) : Prop where
  round : ∀ a r, dec (enc a ++ r) = some (a, r)
  ext : ∀ s a r t, dec s = some (a, r) → dec (s ++ t) = some (a, r ++ t)

def encStr (s : Str) : Str := s.length :: s
def decStr : Reader Str
  | [] => none
  | n :: s => if s.length < n then none else some (s.take n, s.drop n)

theorem codecStr : Codec encStr decStr where
  round a r := by simp [encStr, decStr]
  ext s a r t h := by
    cases s with
    | nil => simp [decStr] at h
    | cons n s =>
      simp only [decStr, List.cons_append] at h ⊢
      split at h
      · cases h
      · rename_i hn
        cases h
        rw [if_neg (by rw [List.length_append]; omega), List.take_append_of_le_length (by omega), List.drop_append_of_le_length (by omega)]

def encScalar : Scalar → Str
  | .null => [0]
  | .num n => [1, n]
  | .str s => 2 :: encStr s
  | .other => [3]
def decScalar : Reader Scalar
  | 0 :: r => some (.null, r)
  | 1 :: n :: r => some (.num n, r)
  | 2 :: r => (decStr r).map fun p => (.str p.1, p.2)
  | 3 :: r => some (.other, r)
  | _ => none

theorem codecScalar : Codec encScalar decScalar where
  round a r := by cases a <;> simp [encScalar, decScalar, codecStr.round]
  ext s a r t h := by
    unfold decScalar at h
    split at h
    · cases h; rfl
    · cases h; rfl
    · simp only [Option.map_eq_some_iff] at h
      obtain ⟨⟨s', r'⟩, h1, h2⟩ := h
      cases h2
      simp [decScalar, codecStr.ext _ _ _ t h1]
    · cases h; rfl
    · cases h

section Entries
variable {α : Type}

def encEntries (enc : α → Str) : List (Str × α) → Str
  | [] => [0]
  | (k, v) :: m => 1 :: (encStr k ++ (enc v ++ encEntries enc m))

/-- Reads at most `n` entries. -/
def decEntries (dec : Reader α) : Nat → Reader (List (Str × α))
  | _, 0 :: r => some ([], r)
  | n + 1, 1 :: r => do
    let (k, r) ← decStr r
    let (v, r) ← dec r
    let (m, r) ← decEntries dec n r
    some ((k, v) :: m, r)
  | _, _ => none

theorem roundEntries {enc : α → Str} {dec : Reader α} (h : Codec enc dec) : ∀ (m : List (Str × α)) (n : Nat), m.length ≤ n → ∀ r,
    decEntries dec n (encEntries enc m ++ r) = some (m, r)
  | [], n, _, r => by cases n <;> rfl
  | (k, v) :: m, 0, hn, r => by simp at hn
  | (k, v) :: m, n + 1, hn, r => by
    have ih := roundEntries h m n (by simpa using hn) r
    simp [encEntries, decEntries, codecStr.round, h.round, ih]

theorem extEntries {enc : α → Str} {dec : Reader α} (h : Codec enc dec) : ∀ (n n' : Nat), n ≤ n' → ∀ s m r t,
    decEntries dec n s = some (m, r) → decEntries dec n' (s ++ t) = some (m, r ++ t)
  | n, n', hn, s, m, r, t, he => by
    unfold decEntries at he
    split at he
    · cases he; cases n' <;> rfl
    · rename_i n r0
      cases n' with
      | zero => simp at hn
      | succ n' =>
        simp only [Option.bind_eq_bind, Option.bind_eq_some_iff] at he
        obtain ⟨⟨k, r1⟩, h1, ⟨v, r2⟩, h2, ⟨m', r3⟩, h3, h4⟩ := he
        cases h4
        simp only at h1 h2 h3
        have h5 := extEntries h n n' (by simpa using hn) _ _ _ t h3
        simp only [List.cons_append, decEntries, codecStr.ext _ _ _ t h1, h.ext _ _ _ t h2, h5, Option.bind_eq_bind, Option.bind_some]
    · cases he

end Entries

theorem length_entries {α : Type} (enc : α → Str) : ∀ (m : List (Str × α)), m.length ≤ (encEntries enc m).length
  | [] => by simp
  | (k, v) :: m => by
    have := length_entries enc m
    simp only [encEntries, List.length_cons, List.length_append]; omega

def encValue : Value → Str
  | .scalar s => 0 :: encScalar s
  | .obj f => 1 :: encEntries encScalar f
def decValue : Reader Value
  | 0 :: r => (decScalar r).map fun p => (.scalar p.1, p.2)
  | 1 :: r => (decEntries decScalar r.length r).map fun p => (.obj p.1, p.2)
  | _ => none

theorem codecValue : Codec encValue decValue where
  round a r := by
    cases a with
    | scalar s => simp [encValue, decValue, codecScalar.round]
    | obj f =>
      simp [encValue, decValue]
      rw [← List.length_append, roundEntries codecScalar f _ (by rw [List.length_append]; have := length_entries encScalar f; omega)]
  ext s a r t h := by
    unfold decValue at h
    split at h
    · simp only [Option.map_eq_some_iff] at h
      obtain ⟨⟨s', r'⟩, h1, h2⟩ := h
      cases h2
      simp [decValue, codecScalar.ext _ _ _ t h1]
    · simp only [Option.map_eq_some_iff] at h
      obtain ⟨⟨s', r'⟩, h1, h2⟩ := h
      cases h2
      rename_i r0
      have := extEntries codecScalar r0.length (r0 ++ t).length (by rw [List.length_append]; omega) _ _ _ t h1
      simp only [List.cons_append, decValue, this, Option.map_some]
    · cases h

def encDoc : Doc → Str
  | .scalar s => 0 :: encScalar s
  | .obj f => 1 :: encEntries encValue f
def decDoc : Reader Doc
  | 0 :: r => (decScalar r).map fun p => (.scalar p.1, p.2)
  | 1 :: r => (decEntries decValue r.length r).map fun p => (.obj p.1, p.2)
  | _ => none

theorem codecDoc : Codec encDoc decDoc where
  round a r := by
    cases a with
    | scalar s => simp [encDoc, decDoc, codecScalar.round]
    | obj f =>
      simp [encDoc, decDoc]
      rw [← List.length_append, roundEntries codecValue f _ (by rw [List.length_append]; have := length_entries encValue f; omega)]
  ext s a r t h := by
    unfold decDoc at h
    split at h
    · simp only [Option.map_eq_some_iff] at h
      obtain ⟨⟨s', r'⟩, h1, h2⟩ := h
      cases h2
      simp [decDoc, codecScalar.ext _ _ _ t h1]
    · simp only [Option.map_eq_some_iff] at h
      obtain ⟨⟨s', r'⟩, h1, h2⟩ := h
      cases h2
      rename_i r0
      have := extEntries codecValue r0.length (r0 ++ t).length (by rw [List.length_append]; omega) _ _ _ t h1
      simp only [List.cons_append, decDoc, this, Option.map_some]
    · cases h

def parseDoc (s : Str) : Option Doc :=
  match decDoc s with
  | some (d, []) => some d
  | some (d, [10]) => some d
  | _ => none

def text : Text where
  json := encDoc
  parseJson := parseDoc
  ip | .v4 n => [4, n] | .v6 n => [6, n]
  parseIp | [4, n] => some (.v4 n) | [6, n] => some (.v6 n) | _ => none
  sock | .v4 ip port => [4, ip, port] | .v6 ip port _ scope => [6, ip, port, scope]
  parseSock | [4, ip, port] => some (.v4 ip port) | [6, ip, port, scope] => some (.v6 ip port 0 scope) | _ => none

theorem text_sound : text.Sound where
  json d _ := by
    have := codecDoc.round d []
    rw [List.append_nil] at this
    show parseDoc (encDoc d) = _
    simp [parseDoc, this]
  json_line d _ := by
    show parseDoc (encDoc d ++ [10]) = _
    simp [parseDoc, codecDoc.round d [10]]
  json_part m s t h ht := by
    have h0 := codecDoc.round (.obj m) []
    rw [List.append_nil, show encDoc (.obj m) = s ++ t from h] at h0
    show parseDoc s = none
    cases hd : decDoc s with
    | none => simp [parseDoc, hd]
    | some p =>
      have := codecDoc.ext s p.1 p.2 t hd
      rw [h0] at this
      have hr := congrArg Prod.snd (Option.some.inj this)
      simp only at hr
      exact absurd (List.append_eq_nil_iff.1 hr.symm).2 ht
  json_nonempty m := by show encDoc (.obj m) ≠ []; simp [encDoc]
  ip a := by cases a <;> rfl
  sock a := by cases a <;> rfl
  sock_dns a := by cases a <;> simp [text, sDns]
  sock_imported a := by cases a <;> simp [text, sImported]

/-! ## Cases -/

/-- 1.2.3.4, heard of from a peer; connected to at second 42. -/
def rec1 : Known := ⟨⟨1, 0xffff01020304, 8333⟩, .peer (.v4 0x04050607 8333), some 42000, some 144000, none, none⟩
/-- A seed with version 6 address. -/
def rec2 : Known := ⟨⟨0, 7, 8333⟩, .dns, none, none, none, none⟩
def book : Cache := [(.v4 0x01020304, rec1), (.v6 7, rec2)]

/-- The hypotheses of `C58_save_load_exact` are met. -/
example : ∃ s c', Cache.text text book = .ok s ∧ Cache.load text s = .ok c' ∧ ∀ ip, c'.get ip = book.get ip :=
  C58_save_load_exact text_sound (by decide) (by
    intro p hp
    simp only [book, List.mem_cons, List.not_mem_nil, or_false] at hp
    rcases hp with rfl | rfl
    · exact ⟨by decide, by simp [rec1]⟩
    · exact ⟨by decide, by simp [rec2]⟩)

def saved : Str := match Cache.text text book with | .ok s => s | _ => []

theorem saved_eq : Cache.text text book = .ok saved := by decide +kernel

/-- The hypotheses of `C58_save_load_partial`, `C86_interrupted_partial` and `C86_next_start` are met. -/
example : ∃ c', Cache.load text saved = .ok c' ∧ c'.get (.v4 0x01020304) = some rec1 := by
  obtain ⟨c', h1, h2⟩ := C58_save_load_partial text_sound (c := book) (by decide) saved_eq
  exact ⟨c', h1, by rw [h2]; decide⟩

example : ∃ s, Cache.text text book = .ok s := C58_saves (by decide)

/-! ## Counterexamples -/

/-- Connected to at 1.5 seconds. -/
def early : Known := { rec2 with lastSuccess := some 1500 }

/-- Parts of a second are lost. -/
theorem C58_time_rounded : ∃ s c', Cache.text text [(.v6 7, early)] = .ok s ∧ Cache.load text s = .ok c' ∧
    c'.get (.v6 7) = some { early with lastSuccess := some 1000 } := by
  refine ⟨match Cache.text text [(.v6 7, early)] with | .ok s => s | _ => [], [(.v6 7, { early with lastSuccess := some 1000 })], ?_, ?_, ?_⟩ <;> decide +kernel

/-- From the year 2106 on, times are wrong. -/
theorem C58_time_wraps : Known.kept { rec2 with lastSuccess := some (2 ^ 32 * 1000) } = { rec2 with lastSuccess := some 0 } := by decide

/-- A file that contains a string which is not an address makes the client panic (not: report an error). -/
theorem C58_bad_address_panics : Cache.load text (encDoc (.obj [([4, 1], .obj [(kAddress, .str [])])])) = .panic := by decide +kernel

/-- Interrupted right after the file was emptied: the book is empty. -/
theorem C86_lost : Interrupted saved saved [] ∧ Cache.load text [] = .ok [] := ⟨.during [] saved rfl, rfl⟩

/-- Interrupted after the first byte was written: the client cannot be started any more. -/
theorem C86_unreadable : Interrupted saved saved (saved.take 1) ∧ ∀ connect answers, start text (some (saved.take 1)) connect answers = ⟨some (saved.take 1), .err .invalidData⟩ := by
  refine ⟨.during _ (saved.drop 1) (List.take_append_drop 1 saved).symm, fun connect answers => C86_stuck ?_ connect answers⟩
  decide +kernel

/-- The hypotheses of `C87_seed` and `C87_first_start` are met; the second seed cannot be resolved. -/
example : ∃ c s, start text none false [some [.v4 1 8333, .v6 2 8333 0 0], none] = ⟨some s, .ok c⟩ ∧ (c.get (.v4 1)).isSome := by
  obtain ⟨c, s, h1, h2, -⟩ := C87_first_start text_sound [some [.v4 1 8333, .v6 2 8333 0 0], none] [] false (l := [.v4 1 8333, .v6 2 8333 0 0]) (by simp) (by simp)
  refine ⟨c, s, h1, ?_⟩
  exact ((C87_seed [] .dns _ h2 (.v4 1)).2 rfl).1.2 ⟨_, List.mem_cons_self, .v4 1 8333, by simp, rfl⟩

end Verif.PeerStore.Scenario
