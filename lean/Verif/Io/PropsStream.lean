import Verif.Io.Stream
import Mathlib.Data.List.Basic

/-!
# Stream decoding: C36, C67

Histories are lists of operations of any peers in any order.  What a peer sent on its current connection is computed from the
history; the specification of decoding cuts that byte string into messages from the front.
-/

set_option autoImplicit false

namespace Verif.Io

/-! ## Specification -/

/-- What happened, most recent first. -/
inductive Obs where
  | connected (a : Nat)
  | disconnected (a : Nat)
  | bytes (a : Nat) (bs : List Byte)
  deriving DecidableEq, Repr

/-- All bytes the peer sent since it connected, if it is connected. -/
def sent (a : Nat) : List Obs → Option (List Byte)
  | [] => none
  | .connected b :: l => if b = a then some [] else sent a l
  | .disconnected b :: l => if b = a then none else sent a l
  | .bytes b bs :: l => if b = a then (sent a l).map (· ++ bs) else sent a l

section
variable {M E : Type}

/-- The byte string starts with the given messages, one after the other, and `rest` remains. -/
inductive Frames (parse : List Byte → Parse M E) : List Byte → List M → List Byte → Prop where
  | nil (s : List Byte) : Frames parse s [] s
  | cons {s : List Byte} {m : M} {n : Nat} {ms : List M} {rest : List Byte} (h : parse s = .done m n)
      (t : Frames parse (s.drop n) ms rest) : Frames parse s (m :: ms) rest

/-- The messages of a byte string: as many as can be cut from the front. -/
def Decodes (parse : List Byte → Parse M E) (s : List Byte) (ms : List M) (rest : List Byte) : Prop :=
  Frames parse s ms rest ∧ ∀ m n, parse rest ≠ .done m n

/-- The grammar is prefix-stable: a message takes at least one and at most all bytes, and more input changes neither a decoded
message nor an error. -/
structure Stable (parse : List Byte → Parse M E) : Prop where
  done : ∀ {s m n}, parse s = .done m n → 0 < n ∧ n ≤ s.length ∧ ∀ t, parse (s ++ t) = .done m n
  bad : ∀ {s e}, parse s = .bad e → ∀ t, parse (s ++ t) = .bad e

/-- The messages delivered from a peer. -/
def delivered (a : Nat) : List (Call M E) → List M
  | [] => []
  | .message b m :: l => if b = a then m :: delivered a l else delivered a l
  | .disconnect _ _ :: l => delivered a l

/-- The decoding errors for which a peer was disconnected. -/
def errors (a : Nat) : List (Call M E) → List E
  | [] => []
  | .message _ _ :: l => errors a l
  | .disconnect b e :: l => if b = a then e :: errors a l else errors a l

/-- Histories of the service, with the number of calls made before the present connection of each peer. -/
inductive Run (parse : List Byte → Parse M E) : List Obs → Service M E → (Nat → Nat) → Prop where
  | start : Run parse [] Service.new (fun _ => 0)
  | connected {l s k} (r : Run parse l s k) (a : Nat) :
      Run parse (.connected a :: l) (s.connected a) (fun b => if b = a then s.calls.length else k b)
  | disconnected {l s k} (r : Run parse l s k) (a : Nat) : Run parse (.disconnected a :: l) (s.disconnected a) k
  | bytes {l s k} (r : Run parse l s k) (a : Nat) (bs : List Byte) :
      Run parse (.bytes a bs :: l) (s.messageReceived parse a bs) k

/-! ## Helpers -/

theorem delivered_append (a : Nat) (l l' : List (Call M E)) :
    delivered a (l ++ l') = delivered a l ++ delivered a l' := by
  induction l with
  | nil => rfl
  | cons c l ih => cases c <;> simp only [List.cons_append, delivered, ih] <;> try (split <;> rfl)

theorem errors_append (a : Nat) (l l' : List (Call M E)) : errors a (l ++ l') = errors a l ++ errors a l' := by
  induction l with
  | nil => rfl
  | cons c l ih => cases c <;> simp only [List.cons_append, errors, ih] <;> try (split <;> rfl)

theorem Frames.trans {parse : List Byte → Parse M E} {s ms r ms' r'} (h : Frames parse s ms r)
    (h' : Frames parse r ms' r') : Frames parse s (ms ++ ms') r' := by
  induction h with
  | nil s => exact h'
  | cons hp _ ih => exact .cons hp (ih h')

theorem Frames.append {parse : List Byte → Parse M E} (st : Stable parse) {s ms r} (h : Frames parse s ms r)
    (t : List Byte) : Frames parse (s ++ t) ms (r ++ t) := by
  induction h with
  | nil s => exact .nil _
  | @cons s m n ms rest hp _ ih =>
    obtain ⟨_, hn, hst⟩ := st.done hp
    refine .cons (hst t) ?_
    rw [List.drop_append_of_le_length hn]; exact ih

/-- The messages of a byte string are determined by it. -/
theorem Decodes.unique {parse : List Byte → Parse M E} {s ms r ms' r'} (h : Decodes parse s ms r)
    (h' : Decodes parse s ms' r') : ms = ms' ∧ r = r' := by
  obtain ⟨h, hr⟩ := h
  obtain ⟨h', hr'⟩ := h'
  induction h generalizing ms' with
  | nil s =>
    cases h' with
    | nil => exact ⟨rfl, rfl⟩
    | cons hp _ => exact absurd hp (hr _ _)
  | cons hp _ ih =>
    cases h' with
    | nil => exact absurd hp (hr' _ _)
    | cons hp' t' =>
      rw [hp] at hp'
      injection hp' with e1 e2
      subst e1; subst e2
      obtain ⟨e, e'⟩ := ih hr t'
      exact ⟨by rw [e], e'⟩

/-- The loop cuts all messages, records the error that stopped it, and always ends. -/
theorem decodeLoop_spec {parse : List Byte → Parse M E} (st : Stable parse) (a : Nat) :
    ∀ (fuel : Nat) (inbox : List Byte) (calls : List (Call M E)), inbox.length < fuel →
      ∃ ms rest, Decodes parse inbox ms rest ∧
        decodeLoop parse a fuel inbox calls = some (rest, calls ++ ms.map (.message a) ++
          (match parse rest with | .bad e => [.disconnect a e] | _ => []))
  | 0, _, _, h => absurd h (Nat.not_lt_zero _)
  | fuel + 1, inbox, calls, h => by
    unfold decodeLoop decodeNext
    cases hp : parse inbox with
    | eof => exact ⟨[], inbox, ⟨.nil _, by rw [hp]; intro m n; exact nofun⟩, by simp [hp]⟩
    | bad e => exact ⟨[], inbox, ⟨.nil _, by rw [hp]; intro m n; exact nofun⟩, by simp [hp]⟩
    | done m n =>
      obtain ⟨hn, hl, _⟩ := st.done hp
      obtain ⟨ms, rest, ⟨hf, hr⟩, he⟩ := decodeLoop_spec st a fuel (inbox.drop n) (calls ++ [.message a m])
        (by rw [List.length_drop]; omega)
      refine ⟨m :: ms, rest, ⟨.cons hp hf, hr⟩, ?_⟩
      show decodeLoop parse a fuel (inbox.drop n) (calls ++ [.message a m]) = _
      rw [he]; simp

theorem delivered_map_self (a : Nat) (ms : List M) :
    delivered a (ms.map (Call.message a) : List (Call M E)) = ms := by
  induction ms with
  | nil => rfl
  | cons m ms ih => simp [delivered, ih]

theorem delivered_map_ne {a b : Nat} (h : b ≠ a) (ms : List M) :
    delivered a (ms.map (Call.message b) : List (Call M E)) = [] := by
  induction ms with
  | nil => rfl
  | cons m ms ih => simp [delivered, ih, h]

theorem errors_map (a b : Nat) (ms : List M) : errors a (ms.map (Call.message b) : List (Call M E)) = [] := by
  induction ms with
  | nil => rfl
  | cons m ms ih => simp [errors, ih]

/-- Invariant of all histories. -/
theorem Run.inv {parse : List Byte → Parse M E} (st : Stable parse) {l s k} (r : Run parse l s k) :
    s.hung = false ∧ (∀ a, k a ≤ s.calls.length) ∧
    (∀ a, (s.inboxes.get a).isSome = (sent a l).isSome) ∧
    ∀ a bs, sent a l = some bs → ∃ ms rest, Decodes parse bs ms rest ∧ s.inboxes.get a = some rest ∧
      delivered a (s.calls.drop (k a)) = ms ∧
      (∀ e ∈ errors a (s.calls.drop (k a)), parse rest = .bad e) ∧
      ((∃ e, parse rest = .bad e) → bs ≠ [] → errors a (s.calls.drop (k a)) ≠ [] ∨ ∃ e, parse [] = .bad e) := by
  induction r with
  | start =>
    exact ⟨rfl, fun _ => Nat.le_refl _, fun _ => rfl, fun _ _ h => by simp [sent] at h⟩
  | @connected l s k r a ih =>
    obtain ⟨h1, h2, h3, h4⟩ := ih
    refine ⟨h1, fun b => ?_, fun b => ?_, fun b bs hb => ?_⟩
    · show (if b = a then _ else _) ≤ s.calls.length
      split
      · exact Nat.le_refl _
      · exact h2 b
    · show ((s.inboxes.insert a []).get b).isSome = _
      rw [AMap.get_insert]
      by_cases e : a = b
      · simp [sent, e]
      · simp only [sent, if_neg e]; exact h3 b
    · by_cases e : a = b
      · subst e
        simp only [sent, if_true] at hb
        injection hb with hb
        subst hb
        have hk : s.calls.drop s.calls.length = [] := List.drop_length
        by_cases hp : ∀ m n, parse [] ≠ .done m n
        · refine ⟨[], [], ⟨.nil _, hp⟩, ?_, ?_, ?_, ?_⟩
          · show (s.inboxes.insert a []).get a = _
            simp
          · show delivered a (s.calls.drop (if a = a then _ else _)) = _
            rw [if_pos rfl, hk]; rfl
          · show ∀ e ∈ errors a (s.calls.drop (if a = a then _ else _)), _
            rw [if_pos rfl, hk]; intro e he; simp [errors] at he
          · intro _ h; exact absurd rfl h
        · exfalso
          apply hp
          intro m n hd
          obtain ⟨hn, hl, _⟩ := st.done hd
          simp at hl
          omega
      · simp only [sent, if_neg e] at hb
        obtain ⟨ms, rest, hd, hi, hm, he, hx⟩ := h4 b bs hb
        have e' : ¬ b = a := fun h => e h.symm
        refine ⟨ms, rest, hd, ?_, ?_, ?_, ?_⟩
        · show (s.inboxes.insert a []).get b = _
          rw [AMap.get_insert_ne _ _ e]; exact hi
        all_goals simp only [if_neg e']
        · exact hm
        · exact he
        · exact hx
  | @disconnected l s k r a ih =>
    obtain ⟨h1, h2, h3, h4⟩ := ih
    refine ⟨h1, h2, fun b => ?_, fun b bs hb => ?_⟩
    · show ((s.inboxes.erase a).get b).isSome = _
      rw [AMap.get_erase]
      by_cases e : a = b
      · simp [sent, e]
      · simp only [sent, if_neg e]; exact h3 b
    · by_cases e : a = b
      · simp [sent, e] at hb
      · simp only [sent, if_neg e] at hb
        obtain ⟨ms, rest, hd, hi, hx⟩ := h4 b bs hb
        refine ⟨ms, rest, hd, ?_, hx⟩
        show (s.inboxes.erase a).get b = _
        rw [AMap.get_erase_ne _ e]; exact hi
  | @bytes l s k r a chunk ih =>
    obtain ⟨h1, h2, h3, h4⟩ := ih
    cases hin : s.inboxes.get a with
    | none =>
      have hs : s.messageReceived parse a chunk = s := by unfold Service.messageReceived; rw [hin]
      have hsa : sent a l = none := by
        have := h3 a
        rw [hin] at this
        cases h : sent a l with
        | none => rfl
        | some _ => rw [h] at this; simp at this
      rw [hs]
      refine ⟨h1, h2, fun b => ?_, fun b bs hb => ?_⟩
      · by_cases e : a = b
        · subst e; simp [sent, hsa, hin]
        · simp only [sent, if_neg e]; exact h3 b
      · by_cases e : a = b
        · subst e; simp [sent, hsa] at hb
        · simp only [sent, if_neg e] at hb; exact h4 b bs hb
    | some inbox =>
      obtain ⟨ms, rest, hd, he⟩ := decodeLoop_spec st a ((inbox ++ chunk).length + 1) (inbox ++ chunk) s.calls
        (Nat.lt_succ_self _)
      have hs : s.messageReceived parse a chunk =
          { s with inboxes := s.inboxes.insert a rest,
                   calls := s.calls ++ ms.map (.message a) ++
                    (match parse rest with | .bad e => [.disconnect a e] | _ => []) } := by
        unfold Service.messageReceived input
        simp only [hin, he]
      rw [hs]
      refine ⟨h1, fun b => ?_, fun b => ?_, fun b bs hb => ?_⟩
      · have := h2 b; simp only [List.length_append]; omega
      · show ((s.inboxes.insert a rest).get b).isSome = _
        rw [AMap.get_insert]
        by_cases e : a = b
        · subst e
          have := h3 a
          rw [hin] at this
          simp only [sent, if_true, Option.isSome_map]
          rw [← this]; rfl
        · simp only [sent, if_neg e]; exact h3 b
      · have hdrop : ∀ (x y : List (Call M E)), (s.calls ++ x ++ y).drop (k b) = s.calls.drop (k b) ++ x ++ y := by
          intro x y
          rw [List.append_assoc, List.drop_append_of_le_length (h2 b), List.append_assoc]
        by_cases e : a = b
        · subst e
          simp only [sent, if_true, Option.map_eq_some_iff] at hb
          obtain ⟨old, ho, hb⟩ := hb
          obtain ⟨ms0, rest0, ⟨hf0, hr0⟩, hi0, hm0, he0, hx0⟩ := h4 a old ho
          rw [hin] at hi0
          injection hi0 with hi0
          subst hi0; subst hb
          refine ⟨ms0 ++ ms, rest, ⟨(hf0.append st chunk).trans hd.1, hd.2⟩, ?_, ?_, ?_, ?_⟩
          · show (s.inboxes.insert a rest).get a = _
            simp
          · show delivered a ((s.calls ++ _ ++ _).drop (k a)) = _
            rw [hdrop, delivered_append, delivered_append, hm0, delivered_map_self]
            cases parse rest <;> simp [delivered]
          · show ∀ e ∈ errors a ((s.calls ++ _ ++ _).drop (k a)), _
            rw [hdrop, errors_append, errors_append, errors_map]
            intro e hmem
            rw [List.append_nil] at hmem
            rcases List.mem_append.1 hmem with h | h
            · have hb0 := he0 e h
              have hb1 := st.bad hb0 chunk
              have : Decodes parse (inbox ++ chunk) [] (inbox ++ chunk) :=
                ⟨.nil _, by rw [hb1]; intro m n; exact nofun⟩
              obtain ⟨_, e2⟩ := hd.unique this
              rw [e2]; exact hb1
            · cases hp : parse rest <;> rw [hp] at h <;> simp [errors] at h
              rw [h]
          · rintro ⟨e, hp⟩ _
            left
            show errors a ((s.calls ++ _ ++ _).drop (k a)) ≠ []
            rw [hdrop, errors_append, errors_append, hp]
            simp [errors]
        · simp only [sent, if_neg e] at hb
          obtain ⟨ms0, rest0, hd0, hi0, hm0, he0, hx0⟩ := h4 b bs hb
          have ed : errors b ((match parse rest with | .bad e => [.disconnect a e] | _ => []) : List (Call M E))
              = [] := by cases parse rest <;> simp [errors, e]
          have dd : delivered b ((match parse rest with | .bad e => [.disconnect a e] | _ => []) : List (Call M E))
              = [] := by cases parse rest <;> simp [delivered]
          refine ⟨ms0, rest0, hd0, ?_, ?_, ?_, ?_⟩
          · show (s.inboxes.insert a rest).get b = _
            rw [AMap.get_insert_ne _ _ e]; exact hi0
          · show delivered b ((s.calls ++ _ ++ _).drop (k b)) = _
            rw [hdrop, delivered_append, delivered_append, hm0, delivered_map_ne e, dd]; simp
          · show ∀ e ∈ errors b ((s.calls ++ _ ++ _).drop (k b)), _
            rw [hdrop, errors_append, errors_append, errors_map, ed]; simpa using he0
          · show _ → _ → errors b ((s.calls ++ _ ++ _).drop (k b)) ≠ [] ∨ _
            rw [hdrop, errors_append, errors_append, errors_map, ed]; simpa using hx0

/-! ## C36 -/

/-- **C36** Whatever peers do and however their bytes are cut into packets: the messages handed to the protocol from a peer
since it connected are those of the concatenation of all its packets, exactly the undecoded rest of that byte string is kept,
and the peer is disconnected for a decoding error exactly when the rest starts with that error. -/
theorem C36_chunks {parse : List Byte → Parse M E} (st : Stable parse) (he : parse [] = .eof) {l s k}
    (r : Run parse l s k) (a : Nat) (bs : List Byte) (h : sent a l = some bs) :
    ∃ ms rest, Decodes parse bs ms rest ∧ s.inboxes.get a = some rest ∧
      delivered a (s.calls.drop (k a)) = ms ∧
      (∀ e, e ∈ errors a (s.calls.drop (k a)) ↔ parse rest = .bad e) := by
  obtain ⟨_, _, _, h4⟩ := r.inv st
  obtain ⟨ms, rest, hd, hi, hm, h5, h6⟩ := h4 a bs h
  refine ⟨ms, rest, hd, hi, hm, fun e => ⟨h5 e, fun hp => ?_⟩⟩
  have hne : bs ≠ [] := by
    rintro rfl
    have h0 : Decodes parse [] [] [] := ⟨.nil _, by rw [he]; intro m n; exact nofun⟩
    obtain ⟨_, e2⟩ := hd.unique h0
    rw [e2, he] at hp; cases hp
  rcases h6 ⟨e, hp⟩ hne with h7 | ⟨e', h7⟩
  · cases hl : errors a (s.calls.drop (k a)) with
    | nil => exact absurd hl h7
    | cons e' t =>
      have := h5 e' (by rw [hl]; exact List.mem_cons_self)
      rw [hp] at this
      injection this with this
      rw [this]; exact List.mem_cons_self
  · rw [he] at h7; cases h7

/-- **C36** Packet boundaries do not matter: two histories in which a peer sent the same bytes on its connection, in whatever
packets and interleaved with whatever else, deliver the same messages, the same errors and the same rest. -/
theorem C36_boundaries {parse : List Byte → Parse M E} (st : Stable parse) (he : parse [] = .eof) {l s k l' s' k'}
    (r : Run parse l s k) (r' : Run parse l' s' k') (a : Nat) (bs : List Byte) (h : sent a l = some bs)
    (h' : sent a l' = some bs) :
    delivered a (s.calls.drop (k a)) = delivered a (s'.calls.drop (k' a)) ∧ s.inboxes.get a = s'.inboxes.get a ∧
      ∀ e, e ∈ errors a (s.calls.drop (k a)) ↔ e ∈ errors a (s'.calls.drop (k' a)) := by
  obtain ⟨ms, rest, hd, hi, hm, h5⟩ := C36_chunks st he r a bs h
  obtain ⟨ms', rest', hd', hi', hm', h5'⟩ := C36_chunks st he r' a bs h'
  obtain ⟨rfl, rfl⟩ := hd.unique hd'
  exact ⟨by rw [hm, hm'], by rw [hi, hi'], fun e => by rw [h5, h5']⟩

/-- **C36** Nothing is delivered for a peer that is not connected, and the decoding loop always ends. -/
theorem C36_unknown {parse : List Byte → Parse M E} (st : Stable parse) {l s k} (r : Run parse l s k) :
    s.hung = false ∧ ∀ a bs, sent a l = none → s.messageReceived parse a bs = s := by
  obtain ⟨h1, _, h3, _⟩ := r.inv st
  refine ⟨h1, fun a bs h => ?_⟩
  have := h3 a
  rw [h] at this
  unfold Service.messageReceived
  cases hi : s.inboxes.get a with
  | none => rfl
  | some _ => rw [hi] at this; simp at this

/-! ## The network's frame grammar is prefix-stable -/

/-- The frame grammar meets the assumption, for every checksum function and payload decoder. -/
theorem frame_stable (checksum : List Byte → List Byte) (inv : E) (payload : List Byte → List Byte → Payload M E) :
    Stable (frame checksum inv payload) := by
  have key : ∀ (s t : List Byte), 24 ≤ s.length → 24 + leNat ((s.drop 16).take 4) ≤ s.length →
      frame checksum inv payload (s ++ t) = frame checksum inv payload s := by
    intro s t h1 h2
    have e1 : ((s ++ t).drop 16).take 4 = (s.drop 16).take 4 := by
      rw [List.drop_append_of_le_length (by omega), List.take_append_of_le_length (by rw [List.length_drop]; omega)]
    have e2 : ((s ++ t).drop 20).take 4 = (s.drop 20).take 4 := by
      rw [List.drop_append_of_le_length (by omega), List.take_append_of_le_length (by rw [List.length_drop]; omega)]
    have e3 : ∀ n, 24 + n ≤ s.length → ((s ++ t).drop 24).take n = (s.drop 24).take n := by
      intro n hn
      rw [List.drop_append_of_le_length (by omega), List.take_append_of_le_length (by rw [List.length_drop]; omega)]
    have e4 : (s ++ t).take 16 = s.take 16 := List.take_append_of_le_length (by omega)
    unfold frame
    simp only [e1, e2, e4, e3 _ h2]
    have l1 : ¬ (s ++ t).length < 24 := by rw [List.length_append]; omega
    have l2 : ¬ (s ++ t).length < 24 + leNat ((s.drop 16).take 4) := by rw [List.length_append]; omega
    have l3 : ¬ s.length < 24 := by omega
    have l4 : ¬ s.length < 24 + leNat ((s.drop 16).take 4) := by omega
    rw [if_neg l1, if_neg l2, if_neg l3, if_neg l4]
  constructor
  · intro s m n h
    by_cases h1 : s.length < 24
    · unfold frame at h; rw [if_pos h1] at h; cases h
    by_cases h2 : s.length < 24 + leNat ((s.drop 16).take 4)
    · unfold frame at h; simp only at h; rw [if_neg h1, if_pos h2] at h; cases h
    refine ⟨?_, ?_, fun t => by rw [key s t (by omega) (by omega)]; exact h⟩
    all_goals
      unfold frame at h
      simp only at h
      rw [if_neg h1, if_neg h2] at h
      split at h
      · cases h
      · split at h
        · injection h with _ h; omega
        · cases h
        · cases h
  · intro s e h t
    by_cases h1 : s.length < 24
    · unfold frame at h; rw [if_pos h1] at h; cases h
    by_cases h2 : s.length < 24 + leNat ((s.drop 16).take 4)
    · unfold frame at h; simp only at h; rw [if_neg h1, if_pos h2] at h; cases h
    rw [key s t (by omega) (by omega)]; exact h

/-! ## C67: a frame with a truncated payload -/

/-- A history in which a peer that is connected goes on sending: further packets, in order. -/
def feed (parse : List Byte → Parse M E) (s : Service M E) (a : Nat) (chunks : List (List Byte)) : Service M E :=
  chunks.foldl (fun s c => s.messageReceived parse a c) s

/-- **C67 is false for the network grammar.** A complete, correctly check-summed frame whose payload ends too early is neither
delivered nor rejected: whatever the peer sends afterwards, no further message of it is ever delivered, it is never
disconnected for a decoding error, and all its bytes are kept. -/
theorem C67_truncated_payload_stalls (checksum : List Byte → List Byte) (inv : E)
    (payload : List Byte → List Byte → Payload M E) (s : Service M E) (a : Nat) (buf : List Byte)
    (hs : s.inboxes.get a = some buf) (hl : 24 ≤ buf.length) (hc : 24 + leNat ((buf.drop 16).take 4) ≤ buf.length)
    (hk : checksum ((buf.drop 24).take (leNat ((buf.drop 16).take 4))) = (buf.drop 20).take 4)
    (hp : payload (buf.take 16) ((buf.drop 24).take (leNat ((buf.drop 16).take 4))) = .eof) (chunks : List (List Byte)) :
    (feed (frame checksum inv payload) s a chunks).calls = s.calls ∧
      (feed (frame checksum inv payload) s a chunks).inboxes.get a = some (buf ++ chunks.flatten) := by
  have key : ∀ (t : List Byte), frame checksum inv payload (buf ++ t) = .eof := by
    intro t
    have e1 : ((buf ++ t).drop 16).take 4 = (buf.drop 16).take 4 := by
      rw [List.drop_append_of_le_length (by omega), List.take_append_of_le_length (by rw [List.length_drop]; omega)]
    have e2 : ((buf ++ t).drop 20).take 4 = (buf.drop 20).take 4 := by
      rw [List.drop_append_of_le_length (by omega), List.take_append_of_le_length (by rw [List.length_drop]; omega)]
    have e3 : ∀ n, 24 + n ≤ buf.length → ((buf ++ t).drop 24).take n = (buf.drop 24).take n := by
      intro n hn
      rw [List.drop_append_of_le_length (by omega), List.take_append_of_le_length (by rw [List.length_drop]; omega)]
    have e4 : (buf ++ t).take 16 = buf.take 16 := List.take_append_of_le_length (by omega)
    unfold frame
    simp only [e1, e2, e4, e3 _ hc]
    rw [if_neg (by rw [List.length_append]; omega), if_neg (by rw [List.length_append]; omega),
      if_neg (by rw [hk]; simp), hp]
  have main : ∀ (chunks : List (List Byte)) (t : List Byte) (s' : Service M E), s'.inboxes.get a = some (buf ++ t) →
      (feed (frame checksum inv payload) s' a chunks).calls = s'.calls ∧
      (feed (frame checksum inv payload) s' a chunks).inboxes.get a = some (buf ++ t ++ chunks.flatten) := by
    intro chunks
    induction chunks with
    | nil => intro t s' h; exact ⟨rfl, by simpa [feed] using h⟩
    | cons c cs ih =>
      intro t s' h
      have hm : s'.messageReceived (frame checksum inv payload) a c =
          { s' with inboxes := s'.inboxes.insert a (buf ++ (t ++ c)) } := by
        unfold Service.messageReceived input
        simp only [h]
        unfold decodeLoop decodeNext
        rw [List.append_assoc, key (t ++ c)]
      obtain ⟨h1, h2⟩ := ih (t ++ c) (s'.messageReceived (frame checksum inv payload) a c)
        (by rw [hm]; simp)
      refine ⟨?_, ?_⟩
      · show (feed _ (s'.messageReceived _ a c) a cs).calls = _
        rw [h1, hm]
      · show (feed _ (s'.messageReceived _ a c) a cs).inboxes.get a = _
        rw [h2]; simp
  have := main chunks [] s (by simpa using hs)
  simpa using this

/-- **C67** (part) A complete frame at the front of a peer's buffer is either delivered, or rejected with a disconnection, as
soon as the next packet (even an empty one) arrives — provided its payload does not end too early. -/
theorem C67_complete_frame_partial (checksum : List Byte → List Byte) (inv : E)
    (payload : List Byte → List Byte → Payload M E) (buf : List Byte)
    (hl : 24 ≤ buf.length) (hc : 24 + leNat ((buf.drop 16).take 4) ≤ buf.length)
    (hp : payload (buf.take 16) ((buf.drop 24).take (leNat ((buf.drop 16).take 4))) ≠ .eof) :
    (∃ m, frame checksum inv payload buf = .done m (24 + leNat ((buf.drop 16).take 4))) ∨
      ∃ e, frame checksum inv payload buf = .bad e := by
  unfold frame
  simp only
  rw [if_neg (by omega), if_neg (by omega)]
  split
  · exact .inr ⟨_, rfl⟩
  · cases h : payload (buf.take 16) ((buf.drop 24).take (leNat ((buf.drop 16).take 4))) with
    | ok m => exact .inl ⟨m, rfl⟩
    | eof => exact absurd h hp
    | bad e => exact .inr ⟨e, rfl⟩

end

/-! ## Concrete cases -/

namespace Example

/-- A small frame grammar: the checksum is the length, the payload must not be empty and must not start with 9. -/
def gram : List Byte → Parse (List Byte) Nat :=
  frame (fun b => [b.length, 0, 0, 0]) 0 (fun _ b => match b with | [] => .eof | 9 :: _ => .bad 9 | b => .ok b)

/-- A frame with the given payload. -/
def enc (b : List Byte) : List Byte := List.replicate 16 7 ++ [b.length, 0, 0, 0] ++ [b.length, 0, 0, 0] ++ b

/-- Two peers; the first sends two messages, the second of them in two packets, then a bad one. -/
def svc : Service (List Byte) Nat :=
  ((((((Service.new.connected 1).connected 2).messageReceived gram 1
    (enc [1, 2, 3] ++ (enc [5, 6]).take 10)).messageReceived gram 2 (enc [8])).messageReceived gram 1
    ((enc [5, 6]).drop 10)).messageReceived gram 1 (enc [9, 9]))

-- C36: a reachable history with messages of two peers, a split message and a decoding error
example : Stable gram ∧ gram [] = .eof ∧
    (∃ l k, Run gram l svc k ∧ sent 1 l = some (enc [1, 2, 3] ++ enc [5, 6] ++ enc [9, 9])) ∧
    delivered 1 svc.calls = [[1, 2, 3], [5, 6]] ∧ delivered 2 svc.calls = [[8]] ∧ errors 1 svc.calls = [9] := by
  refine ⟨frame_stable _ _ _, by decide, ⟨_, _, .bytes (.bytes (.bytes (.bytes (.connected (.connected .start 1) 2) 1 _)
    2 _) 1 _) 1 _, by decide⟩, by decide, by decide, by decide⟩

-- C67: the stalling frame exists, and its hypotheses are met
example : (Service.messageReceived gram (Service.new.connected 1) 1 (enc [])).inboxes.get 1 = some (enc []) ∧
    24 ≤ (enc []).length ∧ gram (enc []) = .eof ∧ (∃ m, gram (enc [3]) = .done m 25) := by
  refine ⟨by decide, by decide, by decide, ⟨[3], by decide⟩⟩

end Example
end Verif.Io
