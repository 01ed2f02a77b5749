import Verif.PeerStore.Scenarios

/-!
# C157: address files that were not written by the client

What is read from a file, whatever is in it.
-/

set_option autoImplicit false

namespace Verif.PeerStore

/-! ## Specification -/

/-- The bytes of a string of ASCII characters. -/
def key (s : String) : Str := s.toList.map Char.toNat

/-- The field of the record. -/
def Field (v : Value) (name : String) (f : Option Scalar) : Prop := ∃ fields, v = .obj fields ∧ f = AMap.get fields (key name)

/-- A time in the file, in seconds, and one in the book: if missing or null there, missing here. -/
def Time : Option Scalar → Option Nat → Prop
  | none, t => t = none
  | some .null, t => t = none
  | some (.num n), t => t.isSome = true ∧ (n < 2 ^ 32 → t = some (n * 1000))
  | some _, _ => False

/-- A source in the file and one in the book. -/
def From (x : Text) : Option Scalar → Source → Prop
  | some (.str s), .dns => s = key "dns"
  | some (.str s), .imported => s = key "imported"
  | some (.str s), .peer a => x.parseSock s = some a
  | _, _ => False

/-- What the file says about an address is what the record has. -/
structure Says (x : Text) (v : Value) (r : Known) : Prop where
  address : ∃ s a, Field v "address" (some (.str s)) ∧ x.parseSock s = some a ∧ r.addr.port = (match a with | .v4 _ p => p | .v6 _ p _ _ => p) ∧
    r.addr.address = (match a with | .v4 ip _ => 0xffff * 2 ^ 32 + ip | .v6 ip _ _ _ => ip)
  services : Field v "services" (some (.num r.addr.services))
  success : ∃ f, Field v "last_success" f ∧ Time f r.lastSuccess
  attempt : ∃ f, Field v "last_attempt" f ∧ Time f r.lastAttempt
  sampled : ∃ f, Field v "last_sampled" f ∧ Time f r.lastSampled
  active : ∃ f, Field v "last_active" f ∧ Time f r.lastActive
  source : ∃ f, Field v "source" f ∧ From x f r.source

/-- A record whose address is a string, but no address. -/
def Misspelt (x : Text) (v : Value) : Prop := ∃ s, Field v "address" (some (.str s)) ∧ x.parseSock s = none

/-! ## Proofs -/

variable {x : Text}

theorem time_from {f : Option Scalar} {t : Option Nat} (h : timeFrom f = .ok t) : Time f t := by
  unfold timeFrom at h
  split at h <;> cases h
  · rfl
  · rfl
  · refine ⟨rfl, fun hn => ?_⟩
    rw [fromBlockTime, Nat.mod_eq_of_lt hn]

theorem source_from {f : Option Scalar} {s : Source} (h : sourceFrom x f = .ok s) : From x f s := by
  unfold sourceFrom at h
  split at h
  · split at h
    · cases h; rename_i e; rw [e]; rfl
    · split at h
      · cases h; rename_i e; rw [e]; rfl
      · split at h <;> cases h
        assumption
  · cases h

theorem fromJson_says {v : Value} {r : Known} (h : Known.fromJson x v = .ok r) : Says x v r := by
  cases v with
  | scalar s => cases h
  | obj fields =>
    simp only [Known.fromJson] at h
    obtain ⟨a, h1, h⟩ := Res.bind_eq_ok.1 h
    obtain ⟨n, h2, h⟩ := Res.bind_eq_ok.1 h
    obtain ⟨t1, h3, h⟩ := Res.bind_eq_ok.1 h
    obtain ⟨t2, h4, h⟩ := Res.bind_eq_ok.1 h
    obtain ⟨t3, h5, h⟩ := Res.bind_eq_ok.1 h
    obtain ⟨t4, h6, h⟩ := Res.bind_eq_ok.1 h
    obtain ⟨s, h7, h⟩ := Res.bind_eq_ok.1 h
    cases h
    refine ⟨?_, ?_, ⟨_, ⟨fields, rfl, rfl⟩, time_from h3⟩, ⟨_, ⟨fields, rfl, rfl⟩, time_from h4⟩, ⟨_, ⟨fields, rfl, rfl⟩, time_from h5⟩, ⟨_, ⟨fields, rfl, rfl⟩, time_from h6⟩,
      ⟨_, ⟨fields, rfl, rfl⟩, source_from h7⟩⟩
    · unfold addressFrom at h1
      split at h1
      · rename_i str e
        cases hp : x.parseSock str with
        | none => rw [hp] at h1; cases h1
        | some b =>
          rw [hp] at h1; cases h1
          exact ⟨str, a, ⟨fields, rfl, e.symm⟩, hp, by cases a <;> rfl, by cases a <;> rfl⟩
      · cases h1
    · unfold servicesFrom at h2
      split at h2
      · rename_i e
        cases h2
        refine ⟨fields, rfl, ?_⟩
        have : (NetAddr.new a n).services = n := by cases a <;> rfl
        rw [this]; exact e.symm
      · cases h2

theorem fromJson_panic {v : Value} (h : Known.fromJson x v = .panic) : Misspelt x v := by
  cases v with
  | scalar s => cases h
  | obj fields =>
    have ht : ∀ f, timeFrom f ≠ .panic := by intro f; unfold timeFrom; split <;> simp
    have hs : ∀ f, servicesFrom f ≠ .panic := by intro f; unfold servicesFrom; split <;> simp
    have hq : ∀ f, sourceFrom x f ≠ .panic := by
      intro f; unfold sourceFrom; split
      · split
        · simp
        · split
          · simp
          · split <;> simp
      · simp
    by_contra hm
    have ha : addressFrom x (AMap.get fields kAddress) ≠ .panic := by
      unfold addressFrom
      split
      · rename_i s e
        cases hp : x.parseSock s with
        | none => exact absurd ⟨s, ⟨fields, rfl, e.symm⟩, hp⟩ hm
        | some a => simp [Res.unwrap]
      · simp
    have step : ∀ {α β : Type} (r : Res Err α) (f : α → Res Err β), r ≠ .panic → (∀ a, f a ≠ .panic) → (r >>= f) ≠ .panic := by
      intro α β r f h1 h2
      cases r with
      | ok a => exact h2 a
      | err e => simp
      | panic => exact absurd rfl h1
    refine absurd h ?_
    simp only [Known.fromJson]
    refine step _ _ ha fun _ => step _ _ (hs _) fun _ => step _ _ (ht _) fun _ => step _ _ (ht _) fun _ => step _ _ (ht _) fun _ => step _ _ (ht _) fun _ =>
      step _ _ (hq _) fun _ => by simp

theorem loadAll_says : ∀ {m : List (Str × Value)} {c c' : Cache}, loadAll x m c = .ok c' →
    (∀ p ∈ m, ∃ ip r, x.parseIp p.1 = some ip ∧ Says x p.2 r ∧ (c'.get ip).isSome = true) ∧ (∀ ip, (c.get ip).isSome = true → (c'.get ip).isSome = true) ∧
    ∀ ip r, c'.get ip = some r → c.get ip = some r ∨ ∃ p ∈ m, x.parseIp p.1 = some ip ∧ Says x p.2 r
  | [], c, c', h => by cases h; exact ⟨by simp, fun _ h => h, fun _ _ h => .inl h⟩
  | (k, v) :: m, c, c', h => by
    simp only [loadAll] at h
    obtain ⟨ka, h1, h⟩ := Res.bind_eq_ok.1 h
    split at h
    · cases h
    · rename_i ip hip
      obtain ⟨i1, i2, i3⟩ := loadAll_says h
      have hs := fromJson_says h1
      refine ⟨?_, ?_, ?_⟩
      · intro p hp
        rcases List.mem_cons.1 hp with rfl | hp
        · exact ⟨ip, ka, hip, hs, i2 ip (by simp)⟩
        · exact i1 p hp
      · intro j hj
        refine i2 j ?_
        rw [AMap.get_insert]; split
        · rfl
        · exact hj
      · intro j r hr
        rcases i3 j r hr with h | ⟨p, hp, h⟩
        · rw [AMap.get_insert] at h
          split at h
          · rename_i e
            cases h; subst e
            exact .inr ⟨(k, v), List.mem_cons_self .., hip, hs⟩
          · exact .inl h
        · exact .inr ⟨p, List.mem_cons_of_mem _ hp, h⟩

theorem loadAll_panic : ∀ {m : List (Str × Value)} {c : Cache}, loadAll x m c = .panic → ∃ p ∈ m, Misspelt x p.2
  | [], c, h => by cases h
  | (k, v) :: m, c, h => by
    simp only [loadAll] at h
    cases hv : Known.fromJson x v with
    | panic => exact ⟨_, List.mem_cons_self .., fromJson_panic hv⟩
    | err e => rw [hv] at h; cases h
    | ok r =>
      rw [hv, Res.ok_bind] at h
      split at h
      · cases h
      · obtain ⟨p, hp, hm⟩ := loadAll_panic h
        exact ⟨p, List.mem_cons_of_mem _ hp, hm⟩

/-- **C157** Whatever is in a file, if it is accepted, then it is empty, or each record in it is complete and its address is in the book; and each record of the book is one of
the file, with the values that are there. -/
theorem C157_read {s : Str} {c : Cache} (h : Cache.load x s = .ok c) : s = [] ∧ c = [] ∨ ∃ m, x.parseJson s = some (.obj m) ∧
    (∀ p ∈ m, ∃ ip r, x.parseIp p.1 = some ip ∧ Says x p.2 r ∧ (c.get ip).isSome = true) ∧
    ∀ ip r, c.get ip = some r → ∃ p ∈ m, x.parseIp p.1 = some ip ∧ Says x p.2 r := by
  unfold Cache.load at h
  split at h
  · cases h; exact .inl ⟨by assumption, rfl⟩
  · split at h
    · cases h
    · rename_i m hm
      obtain ⟨h1, -, h3⟩ := loadAll_says h
      refine .inr ⟨m, hm, h1, fun ip r hr => ?_⟩
      rcases h3 ip r hr with h | h
      · cases h
      · exact h
    · cases h

/-- **C157** (partial) Any other file is refused with an error, or it has a record whose address is a string that is no address.  Missing: that it is refused also then; see
`Scenario.C58_bad_address_panics`. -/
theorem C157_refused_partial (s : Str) : (∃ c, Cache.load x s = .ok c) ∨ (∃ e, Cache.load x s = .err e) ∨ ∃ m, x.parseJson s = some (.obj m) ∧ ∃ p ∈ m, Misspelt x p.2 := by
  cases h : Cache.load x s with
  | ok c => exact .inl ⟨c, rfl⟩
  | err e => exact .inr (.inl ⟨e, rfl⟩)
  | panic =>
    refine .inr (.inr ?_)
    unfold Cache.load at h
    split at h
    · cases h
    · split at h
      · cases h
      · rename_i m hm
        exact ⟨m, hm, loadAll_panic h⟩
      · cases h

namespace Scenario

/-- A file with one record, filed under 0.0.0.1, made by hand. -/
def byHand (fields : List (Str × Scalar)) : Str := encDoc (.obj [([4, 1], .obj fields)])

/-- The hypothesis of `C157_read` is met: a record without times, with one field too many. -/
example : Cache.load text (byHand [(key "source", .str (key "dns")), (key "services", .num 9), (key "comment", .other), (key "address", .str [4, 1, 8333])]) =
    .ok [(.v4 1, ⟨⟨9, 0xffff00000001, 8333⟩, .dns, none, none, none, none⟩)] := by decide +kernel

/-- The cases of `C157_refused_partial` are met: records without services, without a source, with a time that is a string; and a file that is no object. -/
example : Cache.load text (byHand [(key "source", .str (key "dns")), (key "address", .str [4, 1, 8333])]) = .err .invalidData ∧
    Cache.load text (byHand [(key "services", .num 9), (key "address", .str [4, 1, 8333])]) = .err .invalidData ∧
    Cache.load text (byHand [(key "source", .str (key "dns")), (key "services", .num 9), (key "last_active", .str []), (key "address", .str [4, 1, 8333])]) = .err .invalidData ∧
    Cache.load text (encDoc (.scalar .null)) = .err .invalidData := by decide +kernel

/-- **C157** The address a record is filed under is not compared with the one in it: 0.0.0.1 is known, with the address 0.0.0.2. -/
theorem C157_other_address : Cache.load text (byHand [(key "source", .str (key "dns")), (key "services", .num 9), (key "address", .str [4, 2, 8333])]) =
    .ok [(.v4 1, ⟨⟨9, 0xffff00000002, 8333⟩, .dns, none, none, none, none⟩)] := by decide +kernel

end Scenario

end Verif.PeerStore
