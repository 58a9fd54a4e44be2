import Verif.Props.Spdy
/-
C50, continued. For which packets only bytes of the packet are read.
-/
namespace Verif.Props.Spdy
open Verif.Spdy Verif.Spec.Spdy Verif.Lemmas.Spdy

variable {Z : Type} {z : Zlib Z} {mem : Bytes} {length : Nat} {info : Info} {dec : Dec Z} {data : Option Nat}

/-- The payload of a control frame is there as far as the parser looks: for frames with headers all of it, and it is long
    enough for the fields before the headers; for RST_STREAM frames all of it; after a GOAWAY frame of the right length
    there are four more bytes. -/
def Enough (mem : Bytes) : Prop :=
  (typeOf mem = 1 → 10 ≤ payloadSize mem ∧ 8 + payloadSize mem ≤ mem.length) ∧
  (typeOf mem = 2 ∨ typeOf mem = 8 → 6 ≤ payloadSize mem ∧ 8 + payloadSize mem ≤ mem.length) ∧
  (typeOf mem = 3 → payloadSize mem = 8 ∧ mem.getD 4 0 = 0 → 16 ≤ mem.length) ∧
  (typeOf mem = 7 → payloadSize mem = 4 → 16 ≤ mem.length)

instance (mem : Bytes) : Decidable (Enough mem) := by unfold Enough; infer_instance

/-- The packet has all the bytes that the parser looks at: the header of the frame, for control frames also the number
    after it and the payload. -/
def Complete (mem : Bytes) : Prop :=
  if mem.getD 0 0 = 0 then 8 ≤ mem.length
  else if mem.getD 0 0 = 0x80 then 4 ≤ mem.length ∧ (typeOf mem < 11 → 12 ≤ mem.length ∧ Enough mem)
  else 1 ≤ mem.length

instance (mem : Bytes) : Decidable (Complete mem) := by unfold Complete; infer_instance

theorem readHeaders_inside {s : S Z} {d : Dec Z × Bool} : readHeaders s d ≠ .error .outside := by
  have hb : ∀ buf i, hbyte buf i ≠ .error .outside := by
    intro buf i; unfold hbyte; split <;> simp
  have hu : ∀ buf i, hu16 buf i ≠ .error .outside := by
    intro buf i
    simp only [hu16, bind, Except.bind, pure, Except.pure]
    split
    · rename_i e he; intro h; injection h with h; exact hb _ _ (h ▸ he)
    · split
      · rename_i e he; intro h; injection h with h; exact hb _ _ (h ▸ he)
      · simp
  have hbs : ∀ buf n i, hbytes buf i n ≠ .error .outside := by
    intro buf n
    induction n with
    | zero => intro i; simp [hbytes]
    | succ n ih =>
      intro i
      simp only [hbytes, bind, Except.bind, pure, Except.pure]
      split
      · rename_i e he; intro h; injection h with h; exact hb _ _ (h ▸ he)
      · split
        · rename_i e he; intro h; injection h with h; exact ih _ (h ▸ he)
        · simp
  have hp : ∀ buf n i hs, pairs buf i hs n ≠ .error .outside := by
    intro buf n
    induction n with
    | zero => intro i hs; simp [pairs]
    | succ n ih =>
      intro i hs
      simp only [pairs, bind, Except.bind]
      split
      · rename_i e he; intro h; injection h with h; exact hu _ _ (h ▸ he)
      · split
        · rename_i e he; intro h; injection h with h; exact hbs _ _ _ (h ▸ he)
        · split
          · rename_i e he; intro h; injection h with h; exact hu _ _ (h ▸ he)
          · split
            · rename_i e he; intro h; injection h with h; exact hbs _ _ _ (h ▸ he)
            · exact ih _ _
  obtain ⟨d, _ | _⟩ := d
  · simp [readHeaders]
  · simp only [readHeaders, bind, Except.bind, pure, Except.pure]
    split
    · rename_i e he; intro h; injection h with h; exact hu _ _ (h ▸ he)
    · split
      · rename_i e he; intro h; injection h with h; exact hp _ _ _ _ (h ▸ he)
      · simp

theorem headerPayload_outside {f : Frame} {s : S Z} (h8 : s.read + 4 ≤ mem.length) :
    headerPayload z mem f s = .error .outside ↔
      mem.length < s.read + (if f.type = 1 then 10 else 6) + sub32 f.length (if f.type = 1 then 10 else 6) := by
  unfold headerPayload
  rw [u32At_eq]
  simp only [if_pos h8, bind, Except.bind]
  generalize (if f.type = 1 then 10 else 6) = k
  generalize stored mem s.read 4 &&& 0x7FFFFFFF = m
  generalize sub32 f.length k = n
  generalize decompress z s.dec _ _ _ = d
  by_cases hl : mem.length < s.read + k + n
  · simp only [hl, if_true]
  · simp only [hl, if_false, iff_false]
    exact readHeaders_inside

theorem map_outside {α β : Type} {f : α → β} {x : Except Bad α} : x.map f = .error .outside ↔ x = .error .outside := by
  cases x <;> simp [Except.map]

theorem payloadSize_lt (hl : 8 ≤ mem.length) : payloadSize mem < 2 ^ 24 :=
  (stored4 (mem := mem) (i := 4) (by omega)).2

/-- Every packet that is complete is parsed without a read outside it, whatever zlib does. -/
theorem inside_partial (h : Complete mem) : parse z mem length info dec data ≠ .error .outside := by
  unfold Complete at h
  rcases forms mem with c | ⟨hl, c⟩ | ⟨h0, hl, ht⟩ | c | ⟨h0, hl, hs⟩ | ⟨h0, hl, ht, hs, hv⟩ | ⟨h0, hl, ht, hs, hv⟩
  · exfalso
    by_cases a : mem.getD 0 0 = 0
    · rw [if_pos a] at h
      rcases c with c | c | c | ⟨c, -⟩
      · omega
      · omega
      · omega
      · rw [a] at c; exact absurd c (by decide)
    · rw [if_neg a] at h
      by_cases b : mem.getD 0 0 = 0x80
      · rw [if_pos b] at h
        obtain ⟨h4, h⟩ := h
        rcases c with c | c | ⟨c, -⟩ | ⟨-, ht, c⟩
        · omega
        · omega
        · exact a c
        · have := (h ht).1; omega
      · rw [if_neg b] at h
        rcases c with c | ⟨c | c, -⟩ | ⟨c, -⟩ | ⟨c, -⟩
        · omega
        · exact a c
        · exact b c
        · exact a c
        · exact b c
  · rw [bad_first hl c]; simp
  · obtain ⟨o', e, -⟩ := bad_type (z := z) (length := length) (info := info) (dec := dec) (data := data) h0 hl ht
    rw [e]; simp
  · rw [zero_stream c]; simp
  · rw [parse_data h0 hl hs]; simp
  · obtain ⟨o', e, -⟩ := bad_version (z := z) (length := length) (info := info) (dec := dec) (data := data) h0 hl ht hs hv
    rw [e]; simp
  · have hn : mem.getD 0 0 ≠ 0 := by rw [h0]; decide
    rw [if_neg hn, if_pos h0] at h
    obtain ⟨-, h⟩ := h
    obtain ⟨-, h⟩ := h ht
    have hz := payloadSize_lt (mem := mem) (by omega)
    rw [parse_control h0 hl ht hs hv, Ne, map_outside]
    obtain ⟨h1, h2, h3, h7⟩ := h
    unfold payload
    simp only
    split
    · simp
    · rename_i t
      rw [headerPayload_outside (by simp only [atPayload]; omega)]
      simp only [atPayload, t, if_true, sub32]; omega
    · rename_i t
      rw [headerPayload_outside (by simp only [atPayload]; omega)]
      simp only [atPayload, t, sub32]; simp only [show (2 : Nat) ≠ 1 from by decide, if_false]; omega
    · rename_i t
      rw [headerPayload_outside (by simp only [atPayload]; omega)]
      simp only [atPayload, t, sub32]; simp only [show (8 : Nat) ≠ 1 from by decide, if_false]; omega
    · rename_i t
      rw [map_outside]
      simp only [rstStream, u32At_eq, bind, Except.bind, pure, Except.pure]
      split
      · simp
      · rename_i hh
        have h8 : mem.getD 4 0 = 0 ∧ payloadSize mem = 8 := by
          simpa only [not_or, ne_eq, Decidable.not_not] using hh
        have := h3 t ⟨h8.2, h8.1⟩
        rw [if_pos (by simp only [atPayload]; omega)]; simp
    · simp
    · rw [map_outside]
      simp only [ping, u32At_eq, bind, Except.bind, pure, Except.pure]
      split
      · simp
      · rw [if_pos (by simp only [atPayload]; omega)]; simp
    · rename_i t
      rw [map_outside]
      simp only [goaway, u32At_eq, bind, Except.bind, pure, Except.pure]
      split
      · simp
      · rename_i hh
        have h8 : payloadSize mem = 4 := by
          apply Decidable.by_contra; exact hh
        have := h7 t h8
        rw [if_pos (by simp only [atPayload]; omega)]
        simp only
        split
        · simp
        · split <;> simp
    · simp
    · simp
    · simp

/-- The condition is exact: a packet that is not complete, with a frame of a known version and a stream's number, is read
    beyond its end. -/
theorem outside_iff (hv : mem.getD 0 0 = 0x80 → 12 ≤ mem.length → typeOf mem < 11 →
      (mem.getD 1 0).toNat ≤ 3 ∧ stored mem 8 4 % 2 ^ 31 ≠ 0) (hm : mem.length < 2 ^ 31) :
    parse z mem length info dec data = .error .outside ↔ ¬Complete mem := by
  refine ⟨fun h hc => inside_partial hc h, fun h => ?_⟩
  unfold Complete at h
  by_cases a : mem.getD 0 0 = 0
  · rw [if_pos a] at h
    exact truncated_header (.inr (.inr (.inl ⟨a, by omega⟩)))
  · rw [if_neg a] at h
    by_cases b : mem.getD 0 0 = 0x80
    · rw [if_pos b] at h
      by_cases h4 : 4 ≤ mem.length
      · by_cases ht : typeOf mem < 11
        · by_cases hl : 12 ≤ mem.length
          · obtain ⟨hv, hs⟩ := hv b hl ht
            rw [parse_control b hl ht hs hv, map_outside]
            have he : ¬Enough mem := fun g => h ⟨h4, fun _ => ⟨hl, g⟩⟩
            unfold Enough at he
            have hz := payloadSize_lt (mem := mem) (by omega)
            have cases4 : (typeOf mem = 1 ∧ (payloadSize mem < 10 ∨ mem.length < 8 + payloadSize mem)) ∨
                ((typeOf mem = 2 ∨ typeOf mem = 8) ∧ (payloadSize mem < 6 ∨ mem.length < 8 + payloadSize mem)) ∨
                (typeOf mem = 3 ∧ payloadSize mem = 8 ∧ mem.getD 4 0 = 0 ∧ mem.length < 16) ∨
                (typeOf mem = 7 ∧ payloadSize mem = 4 ∧ mem.length < 16) := by
              apply Decidable.by_contra
              intro hn
              refine he ⟨fun t => ?_, fun t => ?_, fun t r => ?_, fun t r => ?_⟩
              · have := fun c => hn (.inl ⟨t, c⟩); omega
              · have := fun c => hn (.inr (.inl ⟨t, c⟩)); omega
              · have : ¬mem.length < 16 := fun c => hn (.inr (.inr (.inl ⟨t, r.1, r.2, c⟩)))
                omega
              · have : ¬mem.length < 16 := fun c => hn (.inr (.inr (.inr ⟨t, r, c⟩)))
                omega
            rcases cases4 with ⟨t, c⟩ | ⟨t | t, c⟩ | ⟨t, r1, r2, c⟩ | ⟨t, r1, c⟩
            · simp only [payload, t]
              rw [headerPayload_outside (by simp only [atPayload]; omega)]
              simp only [atPayload, if_true, sub32]; omega
            · simp only [payload, t]
              rw [headerPayload_outside (by simp only [atPayload]; omega)]
              simp only [atPayload, sub32]; simp only [show (2 : Nat) ≠ 1 from by decide, if_false]; omega
            · simp only [payload, t]
              rw [headerPayload_outside (by simp only [atPayload]; omega)]
              simp only [atPayload, sub32]; simp only [show (8 : Nat) ≠ 1 from by decide, if_false]; omega
            · simp only [payload, t]
              rw [map_outside]
              simp only [rstStream, u32At_eq, bind, Except.bind, pure, Except.pure]
              rw [if_neg (by rw [r1, r2]; simp), if_neg (by simp only [atPayload]; omega)]
            · simp only [payload, t]
              rw [map_outside]
              simp only [goaway, u32At_eq, bind, Except.bind, pure, Except.pure]
              rw [if_neg (by rw [r1]; simp), if_neg (by simp only [atPayload]; omega)]
          · exact truncated_header (.inr (.inr (.inr ⟨b, ht, by omega⟩)))
        · exact absurd ⟨h4, fun g => absurd g ht⟩ h
      · exact truncated_header (.inr (.inl ⟨.inr b, by omega⟩))
    · rw [if_neg b] at h
      exact truncated_header (.inl (by omega))

/-- A decompressor that copies its input, for the examples. -/
def copy : Zlib Unit := fun _ input => ((), input, true)

/-- A complete SYN_STREAM frame with one header. -/
def synStream : Bytes :=
  controlFrame 2 1 0 (be32 1 ++ be32 0 ++ [0, 0] ++ headerBlock [(b! "method", b! "GET")])

example : Complete synStream ∧ Complete (dataFrame 1 1 (b! "hello")) ∧ ¬Complete (synStream.take 20) := by decide +kernel

/-- A SYN_REPLY whose length is less than 6: zlib is told to read almost 2³² bytes. -/
theorem short_reply_overrun : parse copy (controlFrame 2 2 0 (be32 1)) 12 {} ⟨(), (), []⟩ none = .error .outside := by
  rw [outside_iff] <;> decide +kernel

/-- A GOAWAY frame as the standard has it at the end of a packet: the parser looks for a status after it. -/
theorem goaway_overrun : parse copy (controlFrame 2 7 0 (be32 1)) 12 {} ⟨(), (), []⟩ none = .error .outside := by
  rw [outside_iff] <;> decide +kernel

/-- A GOAWAY frame followed by data of stream 1: the stream's number is taken for a status, and the packet is refused with
    a protocol error. -/
theorem goaway_next_frame :
    (parse copy (controlFrame 2 7 0 (be32 1) ++ dataFrame 1 1 (b! "hello")) 25 {} ⟨(), (), []⟩ none).map
      (fun o => (o.result, o.error)) = .ok (some false, some .protocol) := by decide +kernel

/-- A GOAWAY for a connection on which no stream was opened, with last stream 0, trips the assertion. -/
theorem goaway_assertion : parse copy (controlFrame 2 7 0 (be32 0)) 12 {} ⟨(), (), []⟩ none = .error .assertion :=
  zero_stream (.inr (by decide +kernel))

end Verif.Props.Spdy
