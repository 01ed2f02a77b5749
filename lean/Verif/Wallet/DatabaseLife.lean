import Verif.Wallet.Database
/-!
# The wallet's database over its whole life (C155)

Whatever is called, and whichever statements fail, no coin, no address and no index is stored twice; so what `Verif.Wallet.Database` assumes about the tables holds of every database that the wallet has made.
-/

set_option autoImplicit false

namespace Verif.Wallet.Database

open Verif (AMap)
open Verif.Tx (OutPoint TxOut)

/-- A call that writes, with what becomes of its statements (`trait Write`, db.rs:42-54). -/
inductive Call where
  | addUtxo (f : Fate) (k : OutPoint) (address value : Nat)
  | removeUtxo (r : ReadFate) (f : Fate) (k : OutPoint)
  | addAddress (f : Fate) (idFirst : Bool) (address index : Nat) (label : Option String)
  deriving DecidableEq, Repr

/-- The database after a call; its result, error or not, is for the caller (db.rs:151-211). -/
def Conn.call (c : Codec) (s : Conn) : Call → Conn
  | .addUtxo f k a v => (s.addUtxo f k a v).2
  | .removeUtxo r f k => (s.removeUtxo c r f k).2
  | .addAddress f i a n l => (s.addAddress f i a n l).2

/-- A new database (schema.sql). -/
def Conn.new : Conn := ⟨⟨[]⟩, [], 0⟩

/-- The database after some calls. -/
def Conn.after (c : Codec) (l : List Call) : Conn := l.foldl (Conn.call c) .new

/-- The tables keep their constraints (`PRIMARY KEY` and `UNIQUE`, schema.sql:1-18). -/
structure Kept (s : Conn) : Prop where
  coins : (AMap.keys s.coins.utxos).Nodup
  ids : (s.addresses.map (·.address)).Nodup
  indexes : (s.addresses.map (·.index)).Nodup

theorem conflict_none {rows : List Owned} {b : Bool} {a : Nat} {i : Int} (h : conflict rows b a i = none) : ∀ o ∈ rows, o.address ≠ a ∧ o.index ≠ i := by
  intro o ho
  have h' : rows.find? (fun o => decide (o.address = a)) = none ∧ rows.find? (fun o => decide (o.index = i)) = none := by
    unfold conflict at h
    cases b <;> simp only [if_true, Bool.false_eq_true, if_false, Option.or_eq_none_iff] at h
    · exact ⟨h.2, h.1⟩
    · exact h
  exact ⟨by simpa using List.find?_eq_none.mp h'.1 o ho, by simpa using List.find?_eq_none.mp h'.2 o ho⟩

theorem Kept.call {s : Conn} (h : Kept s) (c : Codec) (x : Call) : Kept (s.call c x) := by
  obtain ⟨h1, h2, h3⟩ := h
  cases x with
  | addUtxo f k a v =>
    cases f with
    | unprepared => exact ⟨h1, h2, h3⟩
    | refused n => exact ⟨h1, h2, h3⟩
    | done => exact ⟨nodup_exec h1 (.add k a v), h2, h3⟩
  | removeUtxo r f k =>
    simp only [Conn.call, Conn.removeUtxo]
    split
    · exact ⟨h1, h2, h3⟩
    · cases f with
      | unprepared => exact ⟨h1, h2, h3⟩
      | refused n => exact ⟨h1, h2, h3⟩
      | done => exact ⟨AMap.nodup_erase h1 k, h2, h3⟩
  | addAddress f b a i l =>
    cases f with
    | unprepared => exact ⟨h1, h2, h3⟩
    | refused n => exact ⟨h1, h2, h3⟩
    | done =>
      simp only [Conn.call, Conn.addAddress]
      split
      · rename_i hc
        have hn := conflict_none hc
        refine ⟨h1, ?_, ?_⟩
        · simp only [List.map_append, List.map_cons, List.map_nil]
          refine List.nodup_append.mpr ⟨h2, by simp, ?_⟩
          intro x hx y hy
          simp only [List.mem_map] at hx
          obtain ⟨o, ho, rfl⟩ := hx
          simp only [List.mem_singleton] at hy
          subst hy
          exact (hn o ho).1
        · simp only [List.map_append, List.map_cons, List.map_nil]
          refine List.nodup_append.mpr ⟨h3, by simp, ?_⟩
          intro x hx y hy
          simp only [List.mem_map] at hx
          obtain ⟨o, ho, rfl⟩ := hx
          simp only [List.mem_singleton] at hy
          subst hy
          exact (hn o ho).2
      · rename_i o hc
        refine ⟨h1, ?_, ?_⟩
        · have : ((s.addresses.map fun o' => if o' = o then { o' with label := l } else o').map (·.address)) = s.addresses.map (·.address) := by
            rw [List.map_map]; apply List.map_congr_left; intro o' _; simp only [Function.comp]; split <;> rfl
          simpa only [this] using h2
        · have : ((s.addresses.map fun o' => if o' = o then { o' with label := l } else o').map (·.index)) = s.addresses.map (·.index) := by
            rw [List.map_map]; apply List.map_congr_left; intro o' _; simp only [Function.comp]; split <;> rfl
          simpa only [this] using h3

/-- **C155.** After any calls, whichever statements failed, no coin is stored twice, no address is stored twice, and no two addresses have the same index. -/
theorem C155_unique (c : Codec) (l : List Call) :
    (AMap.keys (Conn.after c l).coins.utxos).Nodup ∧ ((Conn.after c l).addresses.map (·.address)).Nodup ∧ ((Conn.after c l).addresses.map (·.index)).Nodup := by
  have key : ∀ (l : List Call) (s : Conn), Kept s → Kept (l.foldl (Conn.call c) s) := by
    intro l
    induction l with
    | nil => exact fun s h => h
    | cons x l ih => exact fun s h => ih _ (h.call c x)
  obtain ⟨h1, h2, h3⟩ := key l .new ⟨by simp [Conn.new, AMap.keys], by simp [Conn.new], by simp [Conn.new]⟩
  exact ⟨h1, h2, h3⟩

/-- **C155.** In a database made by any calls, adding an address again with its index returns `true` and changes its label; the list has the same addresses in the same order with the same indexes, and all
other labels are as before. (Missing: a refused statement.) -/
theorem C155_again_partial (c : Codec) (l : List Call) {s' : Conn} {f : Fate} (hf : ∀ n, f ≠ .refused n) {idFirst : Bool} {address index : Nat} {label old : Option String} {b : Bool}
    (hi : index < 2 ^ 64) {rows : List (Nat × Nat × Option String)} (hr : (Conn.after c l).listed .done = .ok rows)
    (hm : ⟨address, toI64 index, old⟩ ∈ (Conn.after c l).addresses) (h : (Conn.after c l).addAddress f idFirst address index label = (.ok b, s')) :
    b = true ∧ s'.coins = (Conn.after c l).coins ∧ (address, index, old) ∈ rows ∧
    s'.listed .done = .ok (rows.map fun r => if r.1 = address then (r.1, r.2.1, label) else r) := by
  obtain ⟨-, h2, h3⟩ := C155_unique c l
  generalize hS : Conn.after c l = s at *
  have hu : ∀ o' ∈ s.addresses, o'.address = address ∨ o'.index = toI64 index → o' = ⟨address, toI64 index, old⟩ := by
    intro o' ho' hor
    rcases hor with ha | ha
    · exact List.inj_on_of_nodup_map h2 ho' hm ha
    · exact List.inj_on_of_nodup_map h3 ho' hm ha
  obtain ⟨rfl, hc, hl⟩ := C155_relabel_partial hf hm rfl rfl hu h
  simp only [Conn.listed, Except.ok.injEq] at hr
  subst hr
  refine ⟨rfl, hc, ?_, ?_⟩
  · rw [List.mem_map]; exact ⟨_, hm, by simp [toU64_toI64 hi]⟩
  · simp only [Conn.listed, hl, List.map_map, Except.ok.injEq]
    apply List.map_congr_left
    intro o' ho'
    simp only [Function.comp]
    by_cases ha : o'.address = address
    · rw [if_pos ha, if_pos (hu o' ho' (.inl ha))]
    · rw [if_neg ha, if_neg (by rintro rfl; exact ha rfl)]

/-- **C155.** In a database made by any calls, a list of coins read without failures has every coin once. -/
theorem C155_coins_once (c : Codec) (l : List Call) {r : List (OutPoint × TxOut)} (h : (Conn.after c l).utxos c .done = .ok r) :
    (r.map (·.1)).Nodup ∧ ∀ k o, (k, o) ∈ r ↔ (Conn.after c l).coins.utxo c k = some o := by
  have hn := (C155_unique c l).1
  have hp := C155_list_partial hn h
  refine ⟨?_, fun k o => ⟨hp.1 k o, hp.2 rfl k o⟩⟩
  simp only [Conn.utxos, Except.ok.injEq] at h
  subst h
  simpa [Db.list, List.map_map, Function.comp_def, AMap.keys] using hn

namespace Scenarios

/-- A life of a database: two addresses, one of them twice, one with a taken index, coins, and a statement that is refused. -/
def life : List Call :=
  [.addAddress .done true 7 0 none, .addAddress .done true 8 1 none, .addUtxo .done ⟨1, 0⟩ 7 500, .addUtxo (.refused 1) ⟨2, 0⟩ 8 600, .addAddress .done true 9 1 (some "x"),
   .addUtxo .done ⟨2, 0⟩ 8 600, .addUtxo .done ⟨2, 0⟩ 8 600, .removeUtxo .done .done ⟨1, 0⟩]

example : (Conn.after codec life).listed .done = .ok [(7, 0, none), (8, 1, some "x")] ∧ (Conn.after codec life).utxos codec .done = .ok [(⟨2, 0⟩, ⟨600, 80⟩)] ∧
    ⟨8, toI64 1, some "x"⟩ ∈ (Conn.after codec life).addresses ∧
    ((Conn.after codec life).addAddress .done false 8 1 (some "y")).2.listed .done = .ok [(7, 0, none), (8, 1, some "y")] := by decide

end Scenarios

end Verif.Wallet.Database
