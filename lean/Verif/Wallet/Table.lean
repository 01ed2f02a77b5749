import Mathlib.Data.List.Basic

/-!
# Tables and aligned texts on the wallet's screen: wallet/src/wallet/ui/table.rs, `Aligned` of wallet/src/wallet/ui.rs (C151)

Texts are lists of characters, and each character takes one column (true of the texts the wallet shows: numbers, addresses and amounts).  What is written to the terminal is
recorded as rows and texts; escape sequences are left out, but for the positions.  Arithmetic is that of checked builds: where a number does not fit, there is a panic.
-/

set_option autoImplicit false

namespace Verif.Wallet.Table

/-- `Table` (table.rs:6-9): the rows, all with as many cells as there are columns, and the widths of the columns. -/
structure Grid where
  rows : List (List (List Char))
  widths : List Nat
  deriving DecidableEq, Repr

/-- `default` (table.rs:11-18), with `n` columns. -/
def Grid.new (n : Nat) : Grid := ⟨[], List.replicate n 0⟩

/-- `push` (table.rs:21-26). -/
def Grid.push (t : Grid) (row : List (List Char)) : Grid := ⟨t.rows ++ [row], List.zipWith max t.widths (row.map List.length)⟩

/-- `{:width$}` (table.rs:39): spaces are added on the right. -/
def pad (w : Nat) (c : List Char) : List Char := c ++ List.replicate (w - c.length) ' '

/-- The text of a row (table.rs:32-41): all cells but the last are padded, and followed by a space. -/
def line : List Nat → List (List Char) → List Char
  | _, [] => []
  | _, [c] => c
  | w :: ws, c :: cs => pad w c ++ ' ' :: line ws cs
  | [], c :: cs => c ++ ' ' :: line [] cs

/-- What is written of it (table.rs:42-60): all, or its beginning and `…`.  `none`: `width - 1` is not a number. -/
def fit (width : Nat) (l : List Char) : Option (List Char) :=
  if l.length ≤ width then some l else if width = 0 then none else some (l.take (width - 1) ++ ['…'])

/-- The rows of `render` from the `i`-th on (table.rs:31-61): each with its position.  `none`: a panic. -/
def drawRows (widths : List Nat) (width start : Nat) : Nat → List (List (List Char)) → Option (List (Nat × List Char))
  | _, [] => some []
  | i, r :: rs => match fit width (line widths r) with
    | none => none
    | some l => if 65536 ≤ i % 65536 + start then none else match drawRows widths width start (i + 1) rs with
      | none => none
      | some out => some ((i % 65536 + start, l) :: out)

/-- `render` (table.rs:28-62). -/
def Grid.render (t : Grid) (width start : Nat) : Option (List (Nat × List Char)) := drawRows t.widths width start 0 t.rows

/-- `Aligned::right` (ui.rs:95-98): the first column of a text of length `len` on a terminal with `x` columns. -/
def right (x len : Nat) : Option Nat := if x < len then none else some (x - len + 1)

/-- `Aligned::center` (ui.rs:106-109). -/
def center (x len : Nat) : Option Nat := if x / 2 < len / 2 then none else some (x / 2 - len / 2)

/-- The tables that can be made, with `n` columns. -/
inductive Made (n : Nat) : Grid → Prop
  | new : Made n (Grid.new n)
  | push {t : Grid} (row : List (List Char)) (h : Made n t) (hr : row.length = n) : Made n (t.push row)

/-- The column at which the `j`-th cell of each row begins, from 0 on: after the longest cells of the columns before it, and a space each. -/
def Grid.column (t : Grid) (j : Nat) : Nat := ((t.widths.take j).map (· + 1)).sum

theorem made_widths {n : Nat} {t : Grid} (h : Made n t) : t.widths.length = n ∧ (∀ r ∈ t.rows, r.length = n) ∧
    ∀ (j w : Nat), t.widths[j]? = some w → (∀ r ∈ t.rows, ∀ c, r[j]? = some c → c.length ≤ w) ∧ (w = 0 ∨ ∃ r ∈ t.rows, ∃ c, r[j]? = some c ∧ c.length = w) := by
  induction h with
  | new =>
    refine ⟨by simp [Grid.new], by simp [Grid.new], ?_⟩
    intro j w hw
    refine ⟨by simp [Grid.new], .inl ?_⟩
    have := List.mem_of_getElem? hw
    simp only [Grid.new, List.mem_replicate] at this
    exact this.2
  | @push t row h hr ih =>
    obtain ⟨h1, h2, h3⟩ := ih
    refine ⟨by simp [Grid.push, h1, hr], ?_, ?_⟩
    · intro r hm
      rcases List.mem_append.1 hm with hm | hm
      · exact h2 r hm
      · rw [List.mem_singleton] at hm; rw [hm]; exact hr
    · intro j w hw
      simp only [Grid.push, List.getElem?_zipWith, List.getElem?_map] at hw
      cases hw1 : t.widths[j]? with
      | none => simp [hw1] at hw
      | some v =>
        cases hw2 : row[j]? with
        | none => simp [hw1, hw2] at hw
        | some d =>
          simp only [hw1, hw2, Option.map_some, Option.some.injEq] at hw
          obtain ⟨a1, a2⟩ := h3 j v hw1
          refine ⟨?_, ?_⟩
          · intro r hm c hc
            rcases List.mem_append.1 hm with hm | hm
            · have := a1 r hm c hc; omega
            · rw [List.mem_singleton] at hm; subst hm
              rw [hw2] at hc; injection hc with hc; subst hc; omega
          · by_cases hd : v ≤ d.length
            · exact .inr ⟨row, List.mem_append_right _ (List.mem_singleton.2 rfl), d, hw2, by rw [← hw, Nat.max_eq_right hd]⟩
            · rcases a2 with a2 | ⟨r, hm, c, hc, hcl⟩
              · omega
              · exact .inr ⟨r, List.mem_append_left _ hm, c, hc, by rw [← hw, Nat.max_eq_left (Nat.le_of_not_le hd), hcl]⟩

theorem line_drop : ∀ (ws : List Nat) (r : List (List Char)) (j : Nat) (c : List Char), ws.length = r.length → (∀ (k w : Nat) (d : List Char), ws[k]? = some w → r[k]? = some d → d.length ≤ w) →
    r[j]? = some c → c <+: (line ws r).drop (((ws.take j).map (· + 1)).sum)
  | [], r, j, c, hl, _, hc => by
    have : r = [] := List.length_eq_zero_iff.1 (by simpa using hl.symm)
    subst this; simp at hc
  | w :: ws, [], j, c, hl, _, hc => by simp at hl
  | w :: ws, [d], j, c, hl, _, hc => by
    cases j with
    | zero => simp at hc; subst hc; simp [line]
    | succ j => simp at hc
  | w :: ws, d :: e :: r, 0, c, hl, _, hc => by
    simp at hc; subst hc
    simp [line, pad, List.append_assoc]
  | w :: ws, d :: e :: r, j + 1, c, hl, hw, hc => by
    have ih := line_drop ws (e :: r) j c (by simpa using hl) (fun k v x h1 h2 => hw (k + 1) v x h1 h2) hc
    have hd : d.length ≤ w := hw 0 w d rfl rfl
    have hlen : (pad w d ++ [' ']).length = w + 1 := by simp [pad]; omega
    have : line (w :: ws) (d :: e :: r) = (pad w d ++ [' ']) ++ line ws (e :: r) := by simp [line]
    rw [this]
    simp only [List.take_succ_cons, List.map_cons, List.sum_cons]
    rw [← hlen, List.drop_append, List.drop_eq_nil_of_le (Nat.le_add_right _ _)]
    simpa using ih

theorem rows_spec {widths : List Nat} {width start : Nat} : ∀ {i : Nat} {l : List (List (List Char))} {out : List (Nat × List Char)}, drawRows widths width start i l = some out →
    out.length = l.length ∧ ∀ (k : Nat) (r : List (List Char)), l[k]? = some r → ∃ x, fit width (line widths r) = some x ∧ out[k]? = some ((i + k) % 65536 + start, x)
  | i, [], out, h => by
    simp only [drawRows, Option.some.injEq] at h; subst h; simp
  | i, r :: rs, out, h => by
    unfold drawRows at h
    split at h
    · cases h
    · rename_i x hx
      split at h
      · cases h
      · split at h
        · cases h
        · rename_i o ho
          injection h with h; subst h
          obtain ⟨h1, h2⟩ := rows_spec ho
          refine ⟨by simp [h1], ?_⟩
          intro k q hk
          cases k with
          | zero => simp at hk; subst hk; exact ⟨x, hx, by simp⟩
          | succ k =>
            obtain ⟨y, hy, hk⟩ := h2 k q (by simpa using hk)
            exact ⟨y, hy, by simp [hk, Nat.add_assoc, Nat.add_comm 1 k]⟩

/-- **C151** Each row of the table is drawn, in order, one below the other, at most as wide as the terminal: the whole row, or if that is too wide, all of it that fits before `…` in the last column. -/
theorem C151_rows {t : Grid} {width start : Nat} {out : List (Nat × List Char)} (h : t.render width start = some out) (hn : t.rows.length ≤ 65536) :
    out.length = t.rows.length ∧ ∀ (k : Nat) (r : List (List Char)), t.rows[k]? = some r → ∃ x, out[k]? = some (k + start, x) ∧ x.length ≤ width ∧
      (x = line t.widths r ∨ width < (line t.widths r).length ∧ x.length = width ∧ x = (line t.widths r).take (width - 1) ++ ['…']) := by
  obtain ⟨h1, h2⟩ := rows_spec h
  refine ⟨h1, ?_⟩
  intro k r hk
  obtain ⟨x, hx, ho⟩ := h2 k r hk
  have hlt : k < t.rows.length := (List.getElem?_eq_some_iff.1 hk).1
  have hmod : (0 + k) % 65536 = k := by rw [Nat.zero_add]; exact Nat.mod_eq_of_lt (by omega)
  rw [hmod] at ho
  unfold fit at hx
  split at hx
  · injection hx with hx; subst hx
    exact ⟨_, ho, by assumption, .inl rfl⟩
  · split at hx
    · cases hx
    · injection hx with hx; subst hx
      have hl : ((line t.widths r).take (width - 1) ++ ['…']).length = width := by simp; omega
      exact ⟨_, ho, by omega, .inr ⟨by omega, hl, rfl⟩⟩

/-- **C151** The cells of a column begin at the same place in all rows. -/
theorem C151_aligned {n : Nat} {t : Grid} (h : Made n t) {r : List (List Char)} (hr : r ∈ t.rows) {j : Nat} {c : List Char} (hc : r[j]? = some c) :
    c <+: (line t.widths r).drop (t.column j) := by
  obtain ⟨h1, h2, h3⟩ := made_widths h
  exact line_drop t.widths r j c (by rw [h1, h2 r hr]) (fun k w d hw hd => (h3 k w hw).1 r hr d hd) hc

/-- **C151** And that place is no further to the right than needed: each column is as wide as its longest cell. -/
theorem C151_tight {n : Nat} {t : Grid} (h : Made n t) {j w : Nat} (hw : t.widths[j]? = some w) :
    (∀ r ∈ t.rows, ∀ c, r[j]? = some c → c.length ≤ w) ∧ (w = 0 ∨ ∃ r ∈ t.rows, ∃ c, r[j]? = some c ∧ c.length = w) := (made_widths h).2.2 j w hw

/-- **C151** (partial) On a terminal with at least one column, tables with fewer than 65000 rows are drawn.  Missing: terminals without columns; see `C151_narrow_counterexample`. -/
theorem C151_drawn_partial {t : Grid} {width : Nat} (hw : 0 < width) (hn : t.rows.length ≤ 65000) : ∃ out, t.render width 3 = some out := by
  have : ∀ (l : List (List (List Char))) (i : Nat), i + l.length ≤ 65000 → ∃ out, drawRows t.widths width 3 i l = some out := by
    intro l
    induction l with
    | nil => exact fun i _ => ⟨[], rfl⟩
    | cons r l ih =>
      intro i hi
      simp only [List.length_cons] at hi
      obtain ⟨out, ho⟩ := ih (i + 1) (by omega)
      have hf : ∃ x, fit width (line t.widths r) = some x := by
        unfold fit
        split
        · exact ⟨_, rfl⟩
        · rw [if_neg (by omega)]; exact ⟨_, rfl⟩
      obtain ⟨x, hx⟩ := hf
      have hm : i % 65536 = i := Nat.mod_eq_of_lt (by omega)
      refine ⟨(i % 65536 + 3, x) :: out, ?_⟩
      unfold drawRows
      rw [hx]
      simp only [ho]
      rw [if_neg (by omega)]
  exact this t.rows 0 (by omega)

/-- **C151** (partial) A text that is no wider than the terminal is put into its last columns, or into its middle.  Missing: wider texts; see `C151_header_counterexample`. -/
theorem C151_header_partial {x len : Nat} (h : len ≤ x) :
    (∃ p, right x len = some p ∧ 1 ≤ p ∧ p + len = x + 1) ∧ ∃ p, center x len = some p ∧ p + len ≤ x + 1 ∧ p ≤ (x - len) / 2 + 1 ∧ (x - len) / 2 ≤ p := by
  refine ⟨⟨x - len + 1, if_neg (by omega), by omega, by omega⟩, ⟨x / 2 - len / 2, if_neg (by omega), by omega, by omega, by omega⟩⟩

namespace Scenarios

def grid : Grid := ((Grid.new 3).push ["0".toList, "bc1qxyz".toList, "0.5 BTC".toList]).push ["10".toList, "bc1q".toList, "12 BTC".toList]

/-- A table that can be made, and what is drawn of it on a wide and on a narrow terminal. -/
example : Made 3 grid ∧ grid.render 80 3 = some [(3, "0  bc1qxyz 0.5 BTC".toList), (4, "10 bc1q    12 BTC".toList)] ∧
    grid.render 8 3 = some [(3, "0  bc1q…".toList), (4, "10 bc1q…".toList)] ∧ (List.range 3).map grid.column = [0, 3, 11] :=
  ⟨.push _ (.push _ .new rfl) rfl, by decide +kernel, by decide +kernel, by decide +kernel⟩

/-- **C151** On a terminal without columns (a window of size zero) drawing a table panics. -/
theorem C151_narrow_counterexample : grid.render 0 3 = none := by decide +kernel

/-- **C151** A header that is wider than the terminal makes the wallet panic: the status `Scanning 700000/800000 (87.50%)` on a terminal with thirty columns, a balance on one with ten. -/
theorem C151_header_counterexample : center 30 "Scanning 700000/800000 (87.50%)".toList.length = some 0 ∧ center 29 "Scanning 700000/800000 (87.50%)".toList.length = none ∧
    right 10 "149.1233 BTC".toList.length = none := by decide +kernel

end Scenarios
end Verif.Wallet.Table
