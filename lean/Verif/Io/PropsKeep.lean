import Verif.Io.PropsStream

/-!
# C129: the bytes kept for a peer
-/

set_option autoImplicit false

namespace Verif.Io

section
variable {M E : Type}

theorem frames_suffix {parse : List Byte → Parse M E} {s : List Byte} {ms : List M} {rest : List Byte} (h : Frames parse s ms rest) : rest <:+ s := by
  induction h with
  | nil s => exact List.suffix_refl s
  | cons hp _ ih => exact ih.trans (List.drop_suffix _ _)

theorem leNat_lt : ∀ (l : List Byte), (∀ b ∈ l, b < 256) → leNat l < 256 ^ l.length
  | [], _ => by simp [leNat]
  | b :: l, h => by
    have h1 := leNat_lt l fun x hx => h x (List.mem_cons_of_mem _ hx)
    have h2 : (show Nat from b) < 256 := h b List.mem_cons_self
    simp only at h2
    simp only [leNat, List.length_cons, Nat.pow_succ]
    omega

/-- **C129** (part) If no payload ends too early (see `C129_bytes_unbounded`), and the peer was not disconnected for a decoding error, then what is kept of its bytes is less than one frame: a header of 24 bytes and the length
that it declares. -/
theorem C129_bytes_partial (checksum : List Byte → List Byte) (inv : E) (payload : List Byte → List Byte → Payload M E) (hp : ∀ head body, payload head body ≠ .eof)
    {l : List Obs} {s : Service M E} {k : Nat → Nat} (r : Run (frame checksum inv payload) l s k) {a : Nat} {bs : List Byte} (hs : sent a l = some bs)
    (he : errors a (s.calls.drop (k a)) = []) :
    ∃ rest, s.inboxes.get a = some rest ∧ rest <:+ bs ∧ rest.length < 24 + leNat ((rest.drop 16).take 4) ∧ ((∀ b ∈ bs, b < 256) → rest.length < 24 + 2 ^ 32) := by
  obtain ⟨ms, rest, ⟨h1, h2⟩, h3, -, h5⟩ := C36_chunks (frame_stable checksum inv payload) (by simp [frame]) r a bs hs
  have hlen : rest.length < 24 + leNat ((rest.drop 16).take 4) := by
    by_contra hc
    rcases C67_complete_frame_partial checksum inv payload rest (by omega) (by omega) (hp _ _) with ⟨m, hm⟩ | ⟨e, hb⟩
    · exact h2 _ _ hm
    · have := (h5 e).2 hb
      rw [he] at this
      cases this
  have hsuf := frames_suffix h1
  refine ⟨rest, h3, hsuf, hlen, fun hb => ?_⟩
  have h6 := leNat_lt ((rest.drop 16).take 4) fun b hx => hb b (hsuf.subset (List.mem_of_mem_drop (List.mem_of_mem_take hx)))
  have h7 : (256 : Nat) ^ ((rest.drop 16).take 4).length ≤ 256 ^ 4 := Nat.pow_le_pow_right (by decide) (List.length_take_le _ _)
  have h8 : (256 : Nat) ^ 4 = 2 ^ 32 := by decide
  omega

end

namespace Example

/-- A grammar in which no payload ends too early. -/
def gramAll : List Byte → Parse (List Byte) Nat :=
  frame (fun b => [b.length, 0, 0, 0]) 0 (fun _ b => match b with | 9 :: _ => .bad 9 | b => .ok b)

/-- One message and a part of the next. -/
def svcAll : Service (List Byte) Nat := (Service.new.connected 1).messageReceived gramAll 1 (enc [1, 2, 3] ++ (enc [5, 6]).take 25)

-- C129: the peer is connected and has sent one message and the most of the next one
example : delivered 1 svcAll.calls = [[1, 2, 3]] ∧ errors 1 svcAll.calls = [] ∧ svcAll.inboxes.get 1 = some ((enc [5, 6]).take 25) ∧
    ∃ rest, svcAll.inboxes.get 1 = some rest ∧ rest.length < 24 + leNat ((rest.drop 16).take 4) := by
  refine ⟨by decide, by decide, by decide, ?_⟩
  obtain ⟨rest, h1, -, h2, -⟩ := C129_bytes_partial (fun b => [b.length, 0, 0, 0]) 0 (fun _ b => match b with | 9 :: _ => .bad 9 | b => .ok b)
    (fun h b => by split <;> simp) (.bytes (.connected .start 1) 1 (enc [1, 2, 3] ++ (enc [5, 6]).take 25)) (a := 1) (bs := enc [1, 2, 3] ++ (enc [5, 6]).take 25) (by decide) (by decide)
  exact ⟨rest, h1, h2⟩

/-- **C129 is false for the network grammar.** After a frame whose payload ends too early, a peer can make the client keep any number of bytes, without being disconnected. -/
theorem C129_bytes_unbounded (n : Nat) : ∃ l s k rest, Run gram l s k ∧ errors 1 s.calls = [] ∧ s.inboxes.get 1 = some rest ∧ n < rest.length := by
  obtain ⟨h1, h2⟩ := C67_truncated_payload_stalls (fun b => [b.length, 0, 0, 0]) 0 (fun _ b => match b with | [] => .eof | 9 :: _ => .bad 9 | b => .ok b)
    (Service.messageReceived gram (Service.new.connected 1) 1 (enc [])) 1 (enc []) (by decide) (by decide) (by decide) (by decide) (by decide) [List.replicate n 0]
  refine ⟨_, _, _, _, .bytes (.bytes (.connected .start 1) 1 (enc [])) 1 (List.replicate n 0), ?_, h2, ?_⟩
  · have : (Service.messageReceived gram (Service.messageReceived gram (Service.new.connected 1) 1 (enc [])) 1 (List.replicate n 0)).calls = _ := h1
    rw [this]; decide
  · have : (enc []).length = 24 := by decide
    simp only [List.length_append, List.flatten_cons, List.flatten_nil, List.append_nil, List.length_replicate]
    omega

end Example
end Verif.Io
