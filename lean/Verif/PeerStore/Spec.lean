import Verif.PeerStore.Model

/-!
# The peer address file: specification
-/

set_option autoImplicit false

namespace Verif.PeerStore

/-- A JSON document as the code builds them: keys strictly ascending. -/
def Sorted : Doc → Prop
  | .scalar _ => True
  | .obj m => m.Pairwise (fun a b => strLt a.1 b.1 = true) ∧
      ∀ p ∈ m, match p.2 with | .scalar _ => True | .obj f => f.Pairwise (fun a b => strLt a.1 b.1 = true)

/-- A socket address without flow information, which its text form does not contain. -/
def Sock.noFlow : Sock → Sock
  | .v4 ip port => .v4 ip port
  | .v6 ip port _ scope => .v6 ip port 0 scope

/-- What is assumed about the text formats. -/
structure Text.Sound (x : Text) : Prop where
  /-- JSON is read back as it was written, with or without an end of line. -/
  json : ∀ d, Sorted d → x.parseJson (x.json d) = some d
  json_line : ∀ d, Sorted d → x.parseJson (x.json d ++ [10]) = some d
  /-- Part of the text of an object is not JSON. -/
  json_part : ∀ m s t, x.json (.obj m) = s ++ t → t ≠ [] → x.parseJson s = none
  /-- The text of an object is not empty. -/
  json_nonempty : ∀ m, x.json (.obj m) ≠ []
  /-- Addresses are read back as they were written. -/
  ip : ∀ a, x.parseIp (x.ip a) = some a
  sock : ∀ a, x.parseSock (x.sock a) = some a.noFlow
  /-- No address is written as one of the words for sources. -/
  sock_dns : ∀ a, x.sock a ≠ sDns
  sock_imported : ∀ a, x.sock a ≠ sImported

/-- The second in which a time lies, with 32 bits. -/
def second (t : Nat) : Nat := t / 1000 % 2 ^ 32 * 1000

/-- A source without flow information. -/
def Source.noFlow : Source → Source
  | .peer a => .peer a.noFlow
  | .dns => .dns
  | .imported => .imported

/-- What is kept of a record: the times in whole seconds. -/
def Known.kept (k : Known) : Known :=
  ⟨k.addr, k.source.noFlow, k.lastSuccess.map second, k.lastSampled.map second, k.lastAttempt.map second, k.lastActive.map second⟩

/-- The times of a record. -/
def Known.times (k : Known) : List Nat := k.lastSuccess.toList ++ k.lastSampled.toList ++ k.lastAttempt.toList ++ k.lastActive.toList

/-- Contents of the file after `flush` was interrupted: the file as before, or part (none, all) of what is written to the emptied file. -/
inductive Interrupted (old new : Str) : Str → Prop where
  | before : Interrupted old new old
  | during (s t : Str) (h : new = s ++ t) : Interrupted old new s

end Verif.PeerStore
