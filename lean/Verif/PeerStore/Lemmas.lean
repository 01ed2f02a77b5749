import Verif.Base.Sorted
import Mathlib.Order.Lex
import Mathlib.Data.List.Lex
import Verif.PeerStore.Spec

/-!
# The peer address file: lemmas
-/

set_option autoImplicit false

namespace Verif.PeerStore

theorem strLt_total : StrictTotal strLt :=
  ⟨by intro a; simp [strLt], by intro a b c h1 h2; simp only [strLt, decide_eq_true_eq] at *; exact lt_trans h1 h2,
    by intro a b h1 h2; simp only [strLt, decide_eq_false_iff_not, not_lt] at *; exact le_antisymm h2 h1⟩

variable {x : Text} {k : Known} {c : Cache}

/-- The fields of a record in their order. -/
def fieldsOf (x : Text) (k : Known) (success attempt sampled active : Scalar) : List (Str × Scalar) :=
  [(kAddress, .str (x.sock (.v6 k.addr.address k.addr.port 0 0))), (kActive, active), (kAttempt, attempt), (kSampled, sampled), (kSuccess, success),
    (kServices, .num k.addr.services), (kSource, sourceJson x k.source)]

theorem toJson_eq_ok {v : Value} (h : k.toJson x = .ok v) : ∃ su at' sa ac, timeJson k.lastSuccess = .ok su ∧ timeJson k.lastAttempt = .ok at' ∧
    timeJson k.lastSampled = .ok sa ∧ timeJson k.lastActive = .ok ac ∧ v = .obj (fieldsOf x k su at' sa ac) := by
  unfold Known.toJson at h
  rw [Res.bind_eq_ok] at h
  obtain ⟨su, h1, h⟩ := h
  rw [Res.bind_eq_ok] at h
  obtain ⟨at', h2, h⟩ := h
  rw [Res.bind_eq_ok] at h
  obtain ⟨sa, h3, h⟩ := h
  rw [Res.bind_eq_ok] at h
  obtain ⟨ac, h4, h⟩ := h
  exact ⟨su, at', sa, ac, h1, h2, h3, h4, (Res.ok.inj h).symm⟩

theorem timeFrom_json {o : Option Nat} {s : Scalar} (h : timeJson o = .ok s) : timeFrom (some s) = .ok (o.map second) := by
  cases o with
  | none => cases h; rfl
  | some t =>
    simp only [timeJson, Res.bind_eq_ok, Res.ok.injEq] at h
    obtain ⟨n, h1, rfl⟩ := h
    simp only [blockTime] at h1
    split at h1
    · cases h1
      simp [timeFrom, fromBlockTime, second]
    · cases h1

theorem sourceFrom_json (hx : x.Sound) (s : Source) : sourceFrom x (some (sourceJson x s)) = .ok s.noFlow := by
  cases s with
  | dns => rfl
  | imported => rfl
  | peer a => simp [sourceFrom, sourceJson, hx.sock_dns, hx.sock_imported, hx.sock, Source.noFlow]

theorem fromJson_toJson (hx : x.Sound) {v : Value} (h : k.toJson x = .ok v) : Known.fromJson x v = .ok k.kept := by
  obtain ⟨su, at', sa, ac, h1, h2, h3, h4, rfl⟩ := toJson_eq_ok h
  show (do
    let addr ← addressFrom x (some (.str (x.sock (.v6 k.addr.address k.addr.port 0 0))))
    let services ← servicesFrom (some (.num k.addr.services))
    let success ← timeFrom (some su)
    let attempt ← timeFrom (some at')
    let sampled ← timeFrom (some sa)
    let active ← timeFrom (some ac)
    let source ← sourceFrom x (some (sourceJson x k.source))
    Res.ok (⟨NetAddr.new addr services, source, success, sampled, attempt, active⟩ : Known)) = _
  rw [timeFrom_json h1, timeFrom_json h2, timeFrom_json h3, timeFrom_json h4, sourceFrom_json hx]
  simp only [addressFrom, hx.sock, Res.unwrap, servicesFrom, Res.ok_bind]
  rfl

theorem sorted_fields (su at' sa ac : Scalar) : (fieldsOf x k su at' sa ac).Pairwise (fun a b => strLt a.1 b.1 = true) := by
  simp only [fieldsOf, List.pairwise_cons, List.mem_cons, List.not_mem_nil, or_false, forall_eq_or_imp, forall_eq, List.Pairwise.nil, and_true,
    IsEmpty.forall_iff, implies_true]
  decide

theorem timeJson_ok {o : Option Nat} (h : ∀ t ∈ o.toList, t / 1000 < 2 ^ 64) : ∃ s, timeJson o = .ok s := by
  cases o with
  | none => exact ⟨_, rfl⟩
  | some t => exact ⟨_, by simp only [timeJson, blockTime, if_pos (h t (by simp)), Res.ok_bind]; rfl⟩

theorem toJson_ok (h : ∀ t ∈ k.times, t / 1000 < 2 ^ 64) : ∃ v, k.toJson x = .ok v := by
  simp only [Known.times, List.mem_append] at h
  obtain ⟨s1, h1⟩ := timeJson_ok (o := k.lastSuccess) (fun t ht => h t (by simp [ht]))
  obtain ⟨s2, h2⟩ := timeJson_ok (o := k.lastAttempt) (fun t ht => h t (by simp [ht]))
  obtain ⟨s3, h3⟩ := timeJson_ok (o := k.lastSampled) (fun t ht => h t (by simp [ht]))
  obtain ⟨s4, h4⟩ := timeJson_ok (o := k.lastActive) (fun t ht => h t (by simp [ht]))
  unfold Known.toJson
  simp only [h1, h2, h3, h4, Res.ok_bind]
  exact ⟨_, rfl⟩

/-! ## The map that is written -/

theorem ip_inj (hx : x.Sound) {a b : Ip} (h : x.ip a = x.ip b) : a = b := by
  have := congrArg x.parseIp h
  rw [hx.ip, hx.ip] at this
  exact Option.some.inj this

/-- The entries before they are sorted. -/
theorem entries_eq : ∀ (c : Cache) {m m' : List (Str × Value)}, entries x c m = .ok m' →
    ∃ vs, m' = sextend strLt m vs ∧ vs.map (·.1) = c.map (fun p => x.ip p.1) ∧
      ∀ s v, (s, v) ∈ vs ↔ ∃ ip k, (ip, k) ∈ c ∧ s = x.ip ip ∧ k.toJson x = .ok v
  | [], m, m', h => by
    cases h
    exact ⟨[], rfl, rfl, by simp⟩
  | (ip, k) :: c, m, m', h => by
    rw [entries, Res.bind_eq_ok] at h
    obtain ⟨v, h1, h2⟩ := h
    obtain ⟨vs, h3, h4, h5⟩ := entries_eq c h2
    refine ⟨(x.ip ip, v) :: vs, h3, by simp [h4], fun s w => ?_⟩
    simp only [List.mem_cons, Prod.mk.injEq, h5]
    constructor
    · rintro (⟨rfl, rfl⟩ | ⟨ip', k', h6, h7⟩)
      · exact ⟨ip, k, .inl ⟨rfl, rfl⟩, rfl, h1⟩
      · exact ⟨ip', k', .inr h6, h7⟩
    · rintro ⟨ip', k', ⟨rfl, rfl⟩ | h6, rfl, h8⟩
      · rw [h1] at h8
        exact .inl ⟨rfl, (Res.ok.inj h8).symm⟩
      · exact .inr ⟨ip', k', h6, rfl, h8⟩

theorem entries_spec (hx : x.Sound) (hn : c.keys.Nodup) {m : List (Str × Value)} (h : entries x c [] = .ok m) :
    SSorted strLt m ∧ ∀ s v, (s, v) ∈ m ↔ ∃ ip k, (ip, k) ∈ c ∧ s = x.ip ip ∧ k.toJson x = .ok v := by
  obtain ⟨vs, rfl, h1, h2⟩ := entries_eq c h
  have hs : SSorted strLt ([] : List (Str × Value)) := List.Pairwise.nil
  refine ⟨sorted_sextend strLt_total vs hs, fun s v => ?_⟩
  have hnd : (vs.map (·.1)).Nodup := by
    rw [h1]
    have : c.map (fun p => x.ip p.1) = c.keys.map x.ip := by simp [AMap.keys]
    rw [this]
    exact hn.map (fun a b h => ip_inj hx h)
  rw [mem_sextend strLt_total vs hs hnd]
  simp only [List.not_mem_nil, and_false, or_false]
  exact h2 s v

theorem entries_ok (h : ∀ p ∈ c, ∀ t ∈ p.2.times, t / 1000 < 2 ^ 64) (m : List (Str × Value)) : ∃ m', entries x c m = .ok m' := by
  induction c generalizing m with
  | nil => exact ⟨_, rfl⟩
  | cons p c ih =>
    obtain ⟨v, hv⟩ := toJson_ok (x := x) (h p (by simp))
    obtain ⟨ip, k⟩ := p
    simp only [entries, hv, Res.ok_bind]
    exact ih (fun q hq => h q (by simp [hq])) _

/-! ## The map that is read -/

theorem loadAll_spec (hx : x.Sound) : ∀ (m : List (Str × Value)) (c : Cache),
    (∀ p ∈ m, ∃ ip ka, p.1 = x.ip ip ∧ Known.fromJson x p.2 = .ok ka) → (m.map (·.1)).Nodup →
    ∃ c', loadAll x m c = .ok c' ∧ ∀ ip,
      (∀ v ka, (x.ip ip, v) ∈ m → Known.fromJson x v = .ok ka → c'.get ip = some ka) ∧ ((∀ v, (x.ip ip, v) ∉ m) → c'.get ip = c.get ip)
  | [], c, _, _ => ⟨c, rfl, fun ip => ⟨by simp, fun _ => rfl⟩⟩
  | (s, v) :: m, c, h, hn => by
    obtain ⟨ip, ka, h1, h2⟩ := h _ List.mem_cons_self
    simp only at h1 h2
    subst h1
    simp only [List.map_cons, List.nodup_cons] at hn
    obtain ⟨c', h3, h4⟩ := loadAll_spec hx m (AMap.insert c ip ka) (fun p hp => h p (by simp [hp])) hn.2
    refine ⟨c', by rw [loadAll, h2, Res.ok_bind, hx.ip]; exact h3, fun ip' => ⟨fun v' ka' hm hv => ?_, fun hm => ?_⟩⟩
    · rcases List.mem_cons.1 hm with he | hm
      · simp only [Prod.mk.injEq] at he
        obtain ⟨he, rfl⟩ := he
        have := ip_inj hx he
        subst this
        rw [h2] at hv
        cases hv
        rw [(h4 ip').2 (fun v hv => hn.1 (List.mem_map.2 ⟨_, hv, rfl⟩)), AMap.get_insert, if_pos rfl]
      · exact (h4 ip').1 v' ka' hm hv
    · have hne : ip ≠ ip' := by rintro rfl; exact hm v List.mem_cons_self
      rw [(h4 ip').2 (fun v hv => hm v (List.mem_cons_of_mem _ hv)), AMap.get_insert_ne _ _ hne]

theorem text_eq_ok {s : Str} (h : Cache.text x c = .ok s) : ∃ m, entries x c [] = .ok m ∧ s = x.json (.obj m) ++ [10] := by
  unfold Cache.text at h
  rw [Res.bind_eq_ok] at h
  obtain ⟨m, h1, h2⟩ := h
  exact ⟨m, h1, (Res.ok.inj h2).symm⟩

theorem sorted_entries (hx : x.Sound) (hn : c.keys.Nodup) {m : List (Str × Value)} (h : entries x c [] = .ok m) : Sorted (.obj m) := by
  have hs := entries_spec hx hn h
  refine ⟨hs.1, ?_⟩
  rintro ⟨s, v⟩ hp
  obtain ⟨ip, k, -, -, hk⟩ := (hs.2 s v).1 hp
  obtain ⟨_, _, _, _, -, -, -, -, rfl⟩ := toJson_eq_ok hk
  exact sorted_fields _ _ _ _

/-- Reading the map that is written. -/
theorem loadAll_entries (hx : x.Sound) (hn : c.keys.Nodup) {m : List (Str × Value)} (h : entries x c [] = .ok m) :
    ∃ c', loadAll x m [] = .ok c' ∧ ∀ ip, c'.get ip = (c.get ip).map Known.kept := by
  have hs := entries_spec hx hn h
  obtain ⟨c', h1, h2⟩ := loadAll_spec hx m [] (by
    rintro ⟨s, v⟩ hp
    obtain ⟨ip, k, -, h3, hk⟩ := (hs.2 s v).1 hp
    exact ⟨ip, _, h3, fromJson_toJson hx hk⟩) (by
    refine List.Nodup.of_map id ?_
    rw [List.map_id]
    exact (List.pairwise_map.2 (hs.1.imp (fun {a b} hab he => by rw [he, strLt_total.irrefl] at hab; simp at hab))))
  refine ⟨c', h1, fun ip => ?_⟩
  cases hg : AMap.get c ip with
  | none =>
    rw [(h2 ip).2 ?_]
    · rfl
    · intro v hv
      obtain ⟨ip', k, h3, h4, -⟩ := (hs.2 _ v).1 hv
      have := ip_inj hx h4
      subst this
      rw [AMap.get_of_mem hn h3] at hg
      cases hg
  | some k =>
    have hm := AMap.mem_of_get hg
    -- the record was written
    have : ∃ v, k.toJson x = .ok v := by
      clear hs h1 h2 hg
      have : ∀ (c : Cache) (m m' : List (Str × Value)), (ip, k) ∈ c → entries x c m = .ok m' → ∃ v, k.toJson x = .ok v := by
        intro c
        induction c with
        | nil => intro m m' h; simp at h
        | cons p c ih =>
          intro m m' hm he
          obtain ⟨ip', k'⟩ := p
          rw [entries, Res.bind_eq_ok] at he
          obtain ⟨v, h1, h2⟩ := he
          rcases List.mem_cons.1 hm with hm | hm
          · cases hm; exact ⟨v, h1⟩
          · exact ih _ _ hm h2
      exact this c [] m hm h
    obtain ⟨v, hv⟩ := this
    rw [(h2 ip).1 v k.kept ((hs.2 _ v).2 ⟨ip, k, hm, rfl, hv⟩) (fromJson_toJson hx hv)]
    rfl

theorem load_json (hx : x.Sound) (hn : c.keys.Nodup) {m : List (Str × Value)} (h : entries x c [] = .ok m) :
    Cache.load x (x.json (.obj m)) = loadAll x m [] ∧ Cache.load x (x.json (.obj m) ++ [10]) = loadAll x m [] := by
  have hs := sorted_entries hx hn h
  constructor
  · rw [Cache.load, if_neg (hx.json_nonempty m), hx.json _ hs]
  · rw [Cache.load, if_neg (by simp), hx.json_line _ hs]

end Verif.PeerStore
