import Verif.PeerStore.Lemmas

/-!
# Properties of the peer address file
-/

set_option autoImplicit false

namespace Verif.PeerStore

variable {x : Text} {c : Cache}

/-! ## C58 — saving and loading -/

/-- **C58.** A book that is saved and loaded has the same addresses with the same records, but for times, of which whole seconds (with 32 bits) are kept,
and for flow information of the peer a record came from.  (Missing: exactly the same times; see `Scenario.C58_time_rounded`, `Scenario.C58_time_wraps`.) -/
theorem C58_save_load_partial (hx : x.Sound) (hn : c.keys.Nodup) {s : Str} (h : Cache.text x c = .ok s) :
    ∃ c', Cache.load x s = .ok c' ∧ ∀ ip, c'.get ip = (c.get ip).map Known.kept := by
  obtain ⟨m, h1, rfl⟩ := text_eq_ok h
  rw [(load_json hx hn h1).2]
  exact loadAll_entries hx hn h1

theorem kept_of_seconds {k : Known} (h : ∀ t ∈ k.times, t % 1000 = 0 ∧ t < 2 ^ 32 * 1000) (hf : ∀ ip port flow scope, k.source = .peer (.v6 ip port flow scope) → flow = 0) :
    k.kept = k := by
  have key : ∀ o : Option Nat, (∀ t ∈ o.toList, t % 1000 = 0 ∧ t < 2 ^ 32 * 1000) → o.map second = o := by
    intro o ho
    cases o with
    | none => rfl
    | some t =>
      have := ho t (by simp)
      simp only [Option.map_some, second, Option.some.injEq]
      omega
  simp only [Known.times, List.mem_append] at h
  obtain ⟨addr, source, su, sa, at', ac⟩ := k
  simp only at h
  simp only [Known.kept, key su (fun t ht => h t (by simp [ht])), key sa (fun t ht => h t (by simp [ht])), key at' (fun t ht => h t (by simp [ht])),
    key ac (fun t ht => h t (by simp [ht])), Known.mk.injEq, and_true, true_and]
  cases source with
  | dns => rfl
  | imported => rfl
  | peer a =>
    cases a with
    | v4 ip port => rfl
    | v6 ip port flow scope => simp [Source.noFlow, Sock.noFlow, hf ip port flow scope rfl]

/-- **C58 (exact).** If times are whole seconds before the year 2106 and no peer address has flow information, the book loaded is the book saved. -/
theorem C58_save_load_exact (hx : x.Sound) (hn : c.keys.Nodup) (hk : ∀ p ∈ c, (∀ t ∈ p.2.times, t % 1000 = 0 ∧ t < 2 ^ 32 * 1000) ∧
    ∀ ip port flow scope, p.2.source = .peer (.v6 ip port flow scope) → flow = 0) :
    ∃ s c', Cache.text x c = .ok s ∧ Cache.load x s = .ok c' ∧ ∀ ip, c'.get ip = c.get ip := by
  obtain ⟨m, hm⟩ := entries_ok (x := x) (c := c) (fun p hp t ht => by have := (hk p hp).1 t ht; omega) []
  have ht : Cache.text x c = .ok (x.json (.obj m) ++ [10]) := by rw [Cache.text, hm]; rfl
  obtain ⟨c', h1, h2⟩ := C58_save_load_partial hx hn ht
  refine ⟨_, c', ht, h1, fun ip => ?_⟩
  rw [h2]
  cases hg : AMap.get c ip with
  | none => rfl
  | some k =>
    have := hk _ (AMap.mem_of_get hg)
    rw [Option.map_some, kept_of_seconds this.1 this.2]

/-- **C58 (stable).** Records do not change any more when they are saved and loaded again. -/
theorem C58_stable (k : Known) : k.kept.kept = k.kept := by
  have key : ∀ o : Option Nat, (o.map second).map second = o.map second := by
    intro o
    cases o with
    | none => rfl
    | some t => simp only [Option.map_some, second, Option.some.injEq]; omega
  simp only [Known.kept, key, Known.mk.injEq, and_true, true_and]
  cases k.source with
  | dns => rfl
  | imported => rfl
  | peer a => cases a <;> rfl

/-- **C58 (saving never fails).** Saving does not panic for times before the end of 64-bit seconds. -/
theorem C58_saves (h : ∀ p ∈ c, ∀ t ∈ p.2.times, t / 1000 < 2 ^ 64) : ∃ s, Cache.text x c = .ok s := by
  obtain ⟨m, hm⟩ := entries_ok (x := x) h []
  exact ⟨_, by rw [Cache.text, hm]; rfl⟩

/-- The loaded book has no address twice. -/
theorem nodup_loadAll : ∀ (m : List (Str × Value)) {c c' : Cache}, c.keys.Nodup → loadAll x m c = .ok c' → c'.keys.Nodup
  | [], c, c', hn, h => by cases h; exact hn
  | (s, v) :: m, c, c', hn, h => by
    rw [loadAll, Res.bind_eq_ok] at h
    obtain ⟨ka, -, h⟩ := h
    split at h
    · cases h
    · exact nodup_loadAll m (AMap.nodup_insert hn _ _) h

theorem nodup_load {s : Str} {c : Cache} (h : Cache.load x s = .ok c) : c.keys.Nodup := by
  unfold Cache.load at h
  split at h
  · cases h; simp [AMap.keys]
  · split at h
    · cases h
    · exact nodup_loadAll _ (by simp [AMap.keys]) h
    · cases h

/-! ## C86 — interrupted saves -/

/-- **C86.** If saving the book `c` is interrupted at any point, and the file is loaded afterwards, the result is the book that was in the file before, or no
address at all, or the new book, or an error; never a panic unless the old file gives one.  It is an error if and only if a part of the text was
written that is not empty and lacks more than the end of the line.  (Missing: always the old or the new book; see `Scenario.C86_lost`,
`Scenario.C86_unreadable`.) -/
theorem C86_interrupted_partial (hx : x.Sound) (hn : c.keys.Nodup) {old new s : Str} (hw : Cache.text x c = .ok new) (hi : Interrupted old new s) :
    (s = old ∧ Cache.load x s = Cache.load x old) ∨
    (∃ t, new = s ++ t ∧ ((s = [] ∧ Cache.load x s = .ok []) ∨
      (s ≠ [] ∧ t.length ≤ 1 ∧ ∃ c', Cache.load x s = .ok c' ∧ ∀ ip, c'.get ip = (c.get ip).map Known.kept) ∨
      (s ≠ [] ∧ 1 < t.length ∧ Cache.load x s = .err .invalidData))) := by
  rcases hi with _ | ⟨_, t, ht⟩
  · exact .inl ⟨rfl, rfl⟩
  · refine .inr ⟨t, ht, ?_⟩
    by_cases hs : s = []
    · subst hs; exact .inl ⟨rfl, rfl⟩
    obtain ⟨m, h1, h2⟩ := text_eq_ok hw
    rcases List.eq_nil_or_concat t with rfl | ⟨t', b, rfl⟩
    · rw [List.append_nil] at ht
      refine .inr (.inl ⟨hs, by simp, ?_⟩)
      rw [← ht]
      exact C58_save_load_partial hx hn hw
    · rw [h2, List.concat_eq_append, ← List.append_assoc] at ht
      obtain ⟨ht, -⟩ := List.append_inj' ht rfl
      by_cases ht' : t' = []
      · subst ht'
        refine .inr (.inl ⟨hs, by simp, ?_⟩)
        rw [List.append_nil] at ht
        rw [← ht, (load_json hx hn h1).1]
        exact loadAll_entries hx hn h1
      · refine .inr (.inr ⟨hs, ?_, ?_⟩)
        · cases t' with
          | nil => exact absurd rfl ht'
          | cons => simp
        · rw [Cache.load, if_neg hs, hx.json_part m s t' ht ht']

/-- **C86 (complete).** A save that is not interrupted is loaded at the next start. -/
theorem C86_next_start (hx : x.Sound) (hn : c.keys.Nodup) (hc : c ≠ []) {s : Str} (hw : Cache.text x c = .ok s) (connect : Bool) (answers : List (Option (List Sock))) :
    ∃ c', (start x (some s) connect answers).result = .ok c' ∧ (start x (some s) connect answers).file = some s ∧
      ∀ ip, c'.get ip = (c.get ip).map Known.kept := by
  obtain ⟨c', h1, h2⟩ := C58_save_load_partial hx hn hw
  have hne : c'.isEmpty = false := by
    cases c with
    | nil => exact absurd rfl hc
    | cons p c =>
      have := h2 p.1
      rw [AMap.get_of_mem hn (List.mem_cons_self (a := p)) (k := p.1) (v := p.2)] at this
      cases c' with
      | nil => simp at this
      | cons => rfl
  refine ⟨c', ?_, ?_, h2⟩ <;> simp [start, h1, hne]

/-- **C86 (stuck).** A file that cannot be loaded stops the client at every start, whatever the configuration: the file is not changed. -/
theorem C86_stuck {s : Str} {e : Err} (h : Cache.load x s = .err e) (connect : Bool) (answers : List (Option (List Sock))) :
    start x (some s) connect answers = ⟨some s, .err e⟩ := by simp [start, h]

/-! ## C87 — seeds -/

theorem get_add (c : Cache) (ip ip' : Ip) (k : Known) : (c.add ip k).get ip' = (c.get ip').or (if ip = ip' then some k else none) := by
  unfold Cache.add
  by_cases h : c.contains ip = true
  · rw [if_pos h]
    by_cases he : ip = ip'
    · subst he
      unfold AMap.contains at h
      cases hg : AMap.get c ip with
      | none => rw [hg] at h; simp at h
      | some r => simp
    · simp [he]
  · rw [if_neg h, AMap.get_insert]
    by_cases he : ip = ip'
    · subst he
      have := (AMap.contains_eq_false_iff c ip).1 (by simpa using h)
      simp [this]
    · simp [he]

theorem get_addAll (source : Source) (ip : Ip) (k : Known) : ∀ (l : List Sock) (c : Cache), (addAll source l c).get ip = some k ↔
    c.get ip = some k ∨ (c.get ip = none ∧ ∃ a, l.find? (fun a => decide (a.ip = ip)) = some a ∧ k = .new (NetAddr.new a 0) source none)
  | [], c => by simp [addAll]
  | a :: l, c => by
    rw [addAll, get_addAll source ip k l, get_add]
    by_cases he : a.ip = ip
    · subst he
      cases hg : AMap.get c a.ip with
      | none => simp [eq_comm]
      | some r => simp
    · simp [he]

theorem seedAll_spec (source : Source) : ∀ (answers : List (Option (List Sock))) (c : Cache) (s e : Bool),
    seedAll source answers (c, s, e) = (addAll source (answers.flatMap (·.getD [])) c, s || answers.any (·.isSome), e || answers.any (·.isNone))
  | [], c, s, e => by simp [seedAll, addAll]
  | some l :: q, c, s, e => by
    have key : ∀ (l l' : List Sock) (c : Cache), addAll source (l ++ l') c = addAll source l' (addAll source l c) := by
      intro l
      induction l with
      | nil => intro l' c; rfl
      | cons a l ih => intro l' c; rw [List.cons_append, addAll, addAll, ih]
    rw [seedAll, seedAll_spec source q]
    simp [key]
  | none :: q, c, s, e => by
    rw [seedAll, seedAll_spec source q]
    simp

/-- **C87.** Seeding fails if and only if there are seeds and none of them can be resolved. -/
theorem C87_seed_fails (c : Cache) (source : Source) (answers : List (Option (List Sock))) :
    (∃ c', Cache.seed c source answers = .ok c') ↔ (answers = [] ∨ ∃ l, some l ∈ answers) := by
  unfold Cache.seed
  rw [seedAll_spec]
  simp only [Bool.false_or]
  cases answers with
  | nil => simp
  | cons a q =>
    by_cases h : ((a :: q).any (·.isSome)) = true
    · rw [if_pos h]
      simp only [List.any_eq_true] at h
      obtain ⟨o, ho, hs⟩ := h
      obtain ⟨l, rfl⟩ := Option.isSome_iff_exists.1 hs
      exact ⟨fun _ => .inr ⟨l, ho⟩, fun _ => ⟨_, rfl⟩⟩
    · rw [if_neg h]
      have hall : ∀ o ∈ a :: q, o = none := by
        intro o ho
        cases o with
        | none => rfl
        | some l => exact absurd (List.any_eq_true.2 ⟨_, ho, rfl⟩) h
      have : ((a :: q).any (·.isNone)) = true := List.any_eq_true.2 ⟨a, by simp, by rw [hall a (by simp)]; rfl⟩
      rw [if_pos this]
      constructor
      · rintro ⟨c', hc⟩; cases hc
      · rintro (h1 | ⟨l, h1⟩)
        · cases h1
        · exact absurd (hall _ h1) (by simp)

/-- **C87.** After seeding, the book has what it had before, unchanged, and besides exactly the addresses of the resolved seeds, each with the
given source and without times. -/
theorem C87_seed (c : Cache) (source : Source) (answers : List (Option (List Sock))) {c' : Cache} (h : Cache.seed c source answers = .ok c') (ip : Ip) :
    (∀ k, c.get ip = some k → c'.get ip = some k) ∧
    (c.get ip = none → ((c'.get ip).isSome ↔ ∃ l, some l ∈ answers ∧ ∃ a ∈ l, a.ip = ip) ∧
      ∀ k, c'.get ip = some k → ∃ l, some l ∈ answers ∧ ∃ a ∈ l, a.ip = ip ∧ k = ⟨NetAddr.new a 0, source, none, none, none, none⟩) := by
  have hc : c' = addAll source (answers.flatMap (·.getD [])) c := by
    unfold Cache.seed at h
    rw [seedAll_spec] at h
    simp only at h
    split at h
    · exact (Res.ok.inj h).symm
    · split at h
      · cases h
      · exact (Res.ok.inj h).symm
  subst hc
  have hmem : ∀ a, a ∈ answers.flatMap (·.getD []) ↔ ∃ l, some l ∈ answers ∧ a ∈ l := by
    intro a
    simp only [List.mem_flatMap]
    constructor
    · rintro ⟨o, ho, ha⟩
      cases o with
      | none => simp at ha
      | some l => exact ⟨l, ho, ha⟩
    · rintro ⟨l, hl, ha⟩
      exact ⟨some l, hl, ha⟩
  have key := fun k => get_addAll source ip k (answers.flatMap (·.getD [])) c
  refine ⟨fun k hk => (key k).2 (.inl hk), fun hn => ⟨?_, fun k hk => ?_⟩⟩
  · constructor
    · intro hs
      obtain ⟨k, hk⟩ := Option.isSome_iff_exists.1 hs
      rcases (key k).1 hk with h1 | ⟨-, a, h1, -⟩
      · rw [hn] at h1; cases h1
      · obtain ⟨l, hl, ha⟩ := (hmem a).1 (List.mem_of_find?_eq_some h1)
        exact ⟨l, hl, a, ha, by simpa using List.find?_some h1⟩
    · rintro ⟨l, hl, a, ha, he⟩
      cases hf : (answers.flatMap (·.getD [])).find? (fun a => decide (a.ip = ip)) with
      | none => exact absurd he (by simpa using List.find?_eq_none.1 hf a ((hmem a).2 ⟨l, hl, ha⟩))
      | some b => rw [(key _).2 (.inr ⟨hn, b, hf, rfl⟩)]; rfl
  · rcases (key k).1 hk with h1 | ⟨-, a, h1, rfl⟩
    · rw [hn] at h1; cases h1
    · obtain ⟨l, hl, ha⟩ := (hmem a).1 (List.mem_of_find?_eq_some h1)
      exact ⟨l, hl, a, ha, by simpa using List.find?_some h1, rfl⟩

/-- **C87 (at the start).** A client with an empty book asks the seeds exactly if no peers to connect to are configured; otherwise the answers do not matter. -/
theorem C87_start (x : Text) (file : Option Str) (connect : Bool) (answers answers' : List (Option (List Sock)))
    (h : connect = true ∨ ∃ s p c, file = some s ∧ Cache.load x s = .ok (p :: c)) : start x file connect answers = start x file connect answers' := by
  rcases h with rfl | ⟨s, p, c, rfl, hl⟩
  · unfold start; simp
  · unfold start; simp [hl]

/-- **C87 (at the start).** The first start of a client without configured peers saves what the seeds answered; a start after that has the same addresses. -/
theorem C87_first_start (hx : x.Sound) (answers answers' : List (Option (List Sock))) (connect : Bool) {l : List Sock} (hl : some l ∈ answers) (hne : l ≠ []) :
    ∃ c s, start x none false answers = ⟨some s, .ok c⟩ ∧ Cache.seed [] .dns answers = .ok c ∧
      ∃ c', (start x (some s) connect answers').result = .ok c' ∧ ∀ ip, c'.get ip = c.get ip := by
  obtain ⟨c, hc⟩ := (C87_seed_fails [] .dns answers).2 (.inr ⟨l, hl⟩)
  have hn : c.keys.Nodup := by
    have hc' : c = addAll .dns (answers.flatMap (·.getD [])) [] := by
      unfold Cache.seed at hc
      rw [seedAll_spec] at hc
      simp only at hc
      split at hc
      · exact (Res.ok.inj hc).symm
      · split at hc
        · cases hc
        · exact (Res.ok.inj hc).symm
    rw [hc']
    have : ∀ (l : List Sock) (c : Cache), c.keys.Nodup → (addAll .dns l c).keys.Nodup := by
      intro l
      induction l with
      | nil => intro c h; exact h
      | cons a l ih =>
        intro c h
        rw [addAll]
        refine ih _ ?_
        unfold Cache.add
        split
        · exact h
        · exact AMap.nodup_insert h _ _
    exact this _ _ (by simp [AMap.keys])
  -- all records are as the seeds give them
  have hrec : ∀ p ∈ c, p.2.times = [] ∧ p.2.source = .dns := by
    rintro ⟨ip, k⟩ hp
    obtain ⟨l, -, a, -, -, rfl⟩ := ((C87_seed [] .dns answers hc ip).2 (by simp)).2 k (AMap.get_of_mem hn hp)
    exact ⟨rfl, rfl⟩
  obtain ⟨s, c', h1, h2, h3⟩ := C58_save_load_exact hx hn (fun p hp => ⟨by simp [(hrec p hp).1], by simp [(hrec p hp).2]⟩)
  have hne' : c ≠ [] := by
    rintro rfl
    obtain ⟨a, l', rfl⟩ := List.exists_cons_of_ne_nil hne
    have := ((C87_seed [] .dns answers hc a.ip).2 (by simp)).1.2 ⟨_, hl, a, by simp, rfl⟩
    simp at this
  refine ⟨c, s, by simp [start, hc, h1], hc, ?_⟩
  obtain ⟨c'', h4, -, h5⟩ := C86_next_start hx hn hne' h1 connect answers'
  refine ⟨c'', h4, fun ip => ?_⟩
  obtain ⟨c3, h6, h7⟩ := C58_save_load_partial hx hn h1
  rw [h2] at h6
  cases h6
  rw [h5, ← h7, h3]

end Verif.PeerStore
