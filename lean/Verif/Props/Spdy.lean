import Verif.Lemmas.Spdy
/-
C50. The SPDY parser: what it reports is what the packet stores, big-endian; which packets it refuses; and for which
packets it reads only bytes of the packet.
-/
namespace Verif.Props.Spdy
open Verif.Spdy Verif.Spec.Spdy Verif.Lemmas.Spdy

/-! ### Forms of `parse` -/

/-- The state in which the payload of a frame is looked at. -/
def atPayload {Z : Type} (mem : Bytes) (length stream : Nat) (last : Bool) (info : Info) (dec : Dec Z) : S Z :=
  { read := 8
    current := if payloadSize mem < sub32 length 8 then 8 + payloadSize mem else 0
    length := if payloadSize mem < sub32 length 8 then sub32 (sub32 length 8) (payloadSize mem) else sub32 length 8
    info := { info with streamId := stream, dataOffset := (info.dataOffset + 8) % 2 ^ 32, dataSize := payloadSize mem, lastChunk := last }
    dec := dec }

def follows (mem : Bytes) (length : Nat) : Bool := decide (payloadSize mem < sub32 length 8)

variable {Z : Type} {z : Zlib Z} {mem : Bytes} {length : Nat} {info : Info} {dec : Dec Z} {data : Option Nat}

theorem byte0 (hl : 1 ≤ mem.length) : byteAt mem 0 = .ok (mem.getD 0 0) := by rw [byteAt_eq, if_pos (by omega)]

theorem parse_data (h0 : mem.getD 0 0 = 0) (hl : 8 ≤ mem.length) (hs : stored mem 0 4 ≠ 0) :
    parse z mem length info dec data = .ok (leave data (follows mem length)
      ((fun s : S Z => { s with info := { s.info with httpType := 3 } })
        (atPayload mem length (stored mem 0 4) (info.lastChunk || decide (mem.getD 4 0 &&& 1 ≠ 0)) info dec))) := by
  unfold parse
  rw [byte0 (by omega), h0]
  have : ¬((0 : UInt8) ≠ 0x80 ∧ (0 : UInt8) ≠ 0) := by decide
  simp only [bind, Except.bind, pure, Except.pure, if_neg this, populate_data h0 hl, if_neg hs, payload, sub_sub2, off2, enter, follows, atPayload]
  simp

theorem parse_control (h0 : mem.getD 0 0 = 0x80) (hl : 12 ≤ mem.length) (ht : typeOf mem < 11)
    (hs : stored mem 8 4 % 2 ^ 31 ≠ 0) (hv : (mem.getD 1 0).toNat ≤ 3) :
    parse z mem length info dec data =
      (payload z mem ⟨true, (mem.getD 1 0).toNat, typeOf mem, mem.getD 4 0, payloadSize mem⟩
        (atPayload mem length info.streamId info.lastChunk info dec)).map (leave data (follows mem length)) := by
  unfold parse
  rw [byte0 (by omega), h0]
  have : ¬((0x80 : UInt8) ≠ 0x80 ∧ (0x80 : UInt8) ≠ 0) := by decide
  simp only [bind, Except.bind, pure, Except.pure, if_neg this, populate_control h0 hl ht, if_neg hs, sub_sub3, off3, enter, atPayload,
    if_neg (by omega : ¬3 < (mem.getD 1 0).toNat), Bool.not_true, Bool.false_and, Bool.or_false, follows]
  cases payload z mem _ _ <;> rfl

/-- A packet that ends before the header of its frame is complete is read beyond its end. -/
theorem truncated_header (h : mem.length = 0 ∨ ((mem.getD 0 0 = 0 ∨ mem.getD 0 0 = 0x80) ∧ mem.length < 4) ∨
      (mem.getD 0 0 = 0 ∧ mem.length < 8) ∨ (mem.getD 0 0 = 0x80 ∧ typeOf mem < 11 ∧ mem.length < 12)) :
    parse z mem length info dec data = .error .outside := by
  unfold parse
  rcases h with h | h
  · rw [byteAt_eq, if_neg (by omega)]; rfl
  · by_cases h1 : 1 ≤ mem.length
    · have hf : ¬(mem.getD 0 0 ≠ 0x80 ∧ mem.getD 0 0 ≠ 0) := by tauto
      rw [byte0 h1]
      simp only [bind, Except.bind, if_neg hf, populate_short (by tauto : mem.length < 4 ∨ (mem.getD 0 0 = 0 ∧ mem.length < 8) ∨ (mem.getD 0 0 = 0x80 ∧ typeOf mem < 11 ∧ mem.length < 12))]
    · rw [byteAt_eq, if_neg (by omega)]; rfl

/-- A first byte other than 0x80 and 0 is refused, and nothing else is read. -/
theorem bad_first (hl : 1 ≤ mem.length) (h : mem.getD 0 0 ≠ 0x80 ∧ mem.getD 0 0 ≠ 0) :
    parse z mem length info dec data = .ok
      { result := some false, error := some .invalidFrame, info := info, length := length, read := 0, data := data, dec := dec } := by
  unfold parse
  rw [byte0 hl]
  simp only [bind, Except.bind, pure, Except.pure, if_pos h, leave, Option.isSome_some, if_true]

theorem bad_type (h0 : mem.getD 0 0 = 0x80) (hl : 4 ≤ mem.length) (ht : 11 ≤ typeOf mem) :
    ∃ o, parse z mem length info dec data = .ok o ∧ o.result = some false ∧ o.error = some .invalidFrame ∧
      o.info = { info with dataOffset := (info.dataOffset + 2) % 2 ^ 32 } := by
  unfold parse
  rw [byte0 (by omega), h0]
  simp only [bind, Except.bind, pure, Except.pure, populate_unknown h0 hl ht]
  simp [leave]

/-- Stream number 0 trips an assertion. -/
theorem zero_stream (h : (mem.getD 0 0 = 0 ∧ 8 ≤ mem.length ∧ stored mem 0 4 = 0) ∨
      (mem.getD 0 0 = 0x80 ∧ 12 ≤ mem.length ∧ typeOf mem < 11 ∧ stored mem 8 4 % 2 ^ 31 = 0)) :
    parse z mem length info dec data = .error .assertion := by
  unfold parse
  rcases h with ⟨h0, hl, hs⟩ | ⟨h0, hl, ht, hs⟩
  · rw [byte0 (by omega), h0]
    simp only [bind, Except.bind, populate_data h0 hl, if_pos hs]
    rfl
  · rw [byte0 (by omega), h0]
    simp only [bind, Except.bind, populate_control h0 hl ht, if_pos hs]
    rfl

theorem bad_version (h0 : mem.getD 0 0 = 0x80) (hl : 12 ≤ mem.length) (ht : typeOf mem < 11)
    (hs : stored mem 8 4 % 2 ^ 31 ≠ 0) (hv : 3 < (mem.getD 1 0).toNat) :
    ∃ o, parse z mem length info dec data = .ok o ∧ o.result = some false ∧ o.error = some .invalidVersion := by
  unfold parse
  rw [byte0 (by omega), h0]
  simp only [bind, Except.bind, pure, Except.pure, populate_control h0 hl ht, if_neg hs, if_pos hv]
  simp [leave]

/-- Every packet falls under one of these. -/
theorem forms (mem : Bytes) :
    (mem.length = 0 ∨ ((mem.getD 0 0 = 0 ∨ mem.getD 0 0 = 0x80) ∧ mem.length < 4) ∨
      (mem.getD 0 0 = 0 ∧ mem.length < 8) ∨ (mem.getD 0 0 = 0x80 ∧ typeOf mem < 11 ∧ mem.length < 12)) ∨
    (1 ≤ mem.length ∧ mem.getD 0 0 ≠ 0x80 ∧ mem.getD 0 0 ≠ 0) ∨
    (mem.getD 0 0 = 0x80 ∧ 4 ≤ mem.length ∧ 11 ≤ typeOf mem) ∨
    ((mem.getD 0 0 = 0 ∧ 8 ≤ mem.length ∧ stored mem 0 4 = 0) ∨
      (mem.getD 0 0 = 0x80 ∧ 12 ≤ mem.length ∧ typeOf mem < 11 ∧ stored mem 8 4 % 2 ^ 31 = 0)) ∨
    (mem.getD 0 0 = 0 ∧ 8 ≤ mem.length ∧ stored mem 0 4 ≠ 0) ∨
    (mem.getD 0 0 = 0x80 ∧ 12 ≤ mem.length ∧ typeOf mem < 11 ∧ stored mem 8 4 % 2 ^ 31 ≠ 0 ∧ 3 < (mem.getD 1 0).toNat) ∨
    (mem.getD 0 0 = 0x80 ∧ 12 ≤ mem.length ∧ typeOf mem < 11 ∧ stored mem 8 4 % 2 ^ 31 ≠ 0 ∧ (mem.getD 1 0).toNat ≤ 3) := by
  by_cases a : mem.getD 0 0 = 0
  · have b : mem.getD 0 0 ≠ 0x80 := by rw [a]; decide
    by_cases c : 8 ≤ mem.length
    · by_cases d : stored mem 0 4 = 0
      · exact .inr (.inr (.inr (.inl (.inl ⟨a, c, d⟩))))
      · exact .inr (.inr (.inr (.inr (.inl ⟨a, c, d⟩))))
    · exact .inl (.inr (.inr (.inl ⟨a, by omega⟩)))
  · by_cases b : mem.getD 0 0 = 0x80
    · by_cases c : 4 ≤ mem.length
      · by_cases d : 11 ≤ typeOf mem
        · exact .inr (.inr (.inl ⟨b, c, d⟩))
        · by_cases e : 12 ≤ mem.length
          · by_cases f : stored mem 8 4 % 2 ^ 31 = 0
            · exact .inr (.inr (.inr (.inl (.inr ⟨b, e, by omega, f⟩))))
            · by_cases g : (mem.getD 1 0).toNat ≤ 3
              · exact .inr (.inr (.inr (.inr (.inr (.inr ⟨b, e, by omega, f, g⟩)))))
              · exact .inr (.inr (.inr (.inr (.inr (.inl ⟨b, e, by omega, f, by omega⟩)))))
          · exact .inl (.inr (.inr (.inr ⟨b, by omega, by omega⟩)))
      · exact .inl (.inr (.inl ⟨.inr b, by omega⟩))
    · by_cases c : 1 ≤ mem.length
      · exact .inr (.inl ⟨c, b, a⟩)
      · exact .inl (.inl (by omega))

/-! ### What is reported -/

/-- What is said about the kind of a frame: a request, a response, data or control; HEADERS frames and frames of type 5
    say nothing. -/
def kind (mem : Bytes) (before : Nat) : Nat :=
  if mem.getD 0 0 = 0 then 3 else
  match typeOf mem with
  | 0 => 3
  | 1 => 1
  | 2 => 2
  | 5 => before
  | 8 => before
  | _ => 4

theorem headerPayload_ok {f : Frame} {s s' : S Z} (h : headerPayload z mem f s = .ok s') :
    s'.current = s.current ∧ s'.length = s.length ∧ s'.info.dataSize = s.info.dataSize ∧
      s'.info.dataOffset = s.info.dataOffset ∧ s'.info.lastChunk = s.info.lastChunk ∧
      s'.info.httpType = s.info.httpType ∧ s'.info.streamId = stored mem s.read 4 % 2 ^ 31 ∧
      s.read + 4 ≤ mem.length ∧ (s.error = none → s'.error = none ∨ s'.error = some .decompression) := by
  unfold headerPayload at h
  rw [u32At_eq] at h
  by_cases h4 : s.read + 4 ≤ mem.length
  · simp only [if_pos h4, bind, Except.bind, mask31] at h
    generalize (if f.type = 1 then 10 else 6) = k at h
    generalize decompress z s.dec _ _ _ = d at h
    by_cases hl : mem.length < s.read + k + sub32 f.length k
    · rw [if_pos hl] at h; simp at h
    · rw [if_neg hl] at h
      obtain ⟨d, _ | _⟩ := d
      · simp only [readHeaders, Except.ok.injEq] at h
        subst h
        exact ⟨rfl, rfl, rfl, rfl, rfl, rfl, rfl, h4, fun _ => .inr rfl⟩
      · simp only [readHeaders, bind, Except.bind, pure, Except.pure] at h
        cases h1 : hu16 d.buf 0 with
        | error e => rw [h1] at h; simp at h
        | ok c =>
          rw [h1] at h
          simp only at h
          cases h2 : pairs d.buf 2 s.info.headers c with
          | error e => rw [h2] at h; simp at h
          | ok hs =>
            rw [h2] at h
            simp only [Except.ok.injEq] at h
            subst h
            exact ⟨rfl, rfl, rfl, rfl, rfl, rfl, rfl, h4, fun e => .inl e⟩
  · simp [if_neg h4, bind, Except.bind] at h

theorem payload_keeps {f : Frame} {s s' : S Z} (hp : payload z mem f s = .ok s') :
    s'.current = s.current ∧ s'.length = s.length := by
  unfold payload at hp
  simp only at hp
  split at hp
  · simp only [Except.ok.injEq] at hp; subst hp; exact ⟨rfl, rfl⟩
  · obtain ⟨a, b, -⟩ := headerPayload_ok hp; exact ⟨a, b⟩
  · obtain ⟨a, b, -⟩ := headerPayload_ok hp; exact ⟨a, b⟩
  · obtain ⟨a, b, -⟩ := headerPayload_ok hp; exact ⟨a, b⟩
  · simp only [rstStream, u32At_eq, bind, Except.bind, pure, Except.pure] at hp
    split at hp
    · simp only [Except.map, Except.ok.injEq] at hp; subst hp; exact ⟨rfl, rfl⟩
    · split at hp
      · simp [Except.map] at hp
      · simp only [Except.map, Except.ok.injEq] at hp; subst hp; exact ⟨rfl, rfl⟩
  · simp only [Except.ok.injEq] at hp; subst hp; exact ⟨rfl, rfl⟩
  · simp only [ping, u32At_eq, bind, Except.bind, pure, Except.pure] at hp
    split at hp
    · simp only [Except.map, Except.ok.injEq] at hp; subst hp; exact ⟨rfl, rfl⟩
    · split at hp
      · simp [Except.map] at hp
      · simp only [Except.map, Except.ok.injEq] at hp; subst hp; exact ⟨rfl, rfl⟩
  · simp only [goaway, u32At_eq, bind, Except.bind, pure, Except.pure] at hp
    split at hp
    · simp only [Except.map, Except.ok.injEq] at hp; subst hp; exact ⟨rfl, rfl⟩
    · split at hp
      · simp [Except.map] at hp
      · split at hp
        · simp only [Except.map, Except.ok.injEq] at hp; subst hp; exact ⟨rfl, rfl⟩
        · split at hp <;>
          · simp only [Except.map, Except.ok.injEq] at hp; subst hp; exact ⟨rfl, rfl⟩
  · simp only [Except.ok.injEq] at hp; subst hp; exact ⟨rfl, rfl⟩
  · simp only [Except.ok.injEq] at hp; subst hp; exact ⟨rfl, rfl⟩
  · simp only [Except.ok.injEq] at hp; subst hp; exact ⟨rfl, rfl⟩

/-- The fields of a frame that is accepted. The offset of the data grows by the length of the frame's header, the size of
    the data is the length in the frame, the stream is the one in a data frame or in a frame with headers, the last chunk
    is the one with flag 1, and only frames with headers have an effect on the headers. -/
theorem fields {o : Out Z} (h : parse z mem length info dec data = .ok o) (he : o.error = none) :
    o.info.dataSize = payloadSize mem ∧ o.info.dataOffset = (info.dataOffset + 8) % 2 ^ 32 ∧
    o.info.streamId = (if mem.getD 0 0 = 0 then stored mem 0 4
      else if CarriesHeaders mem then stored mem 8 4 % 2 ^ 31 else info.streamId) ∧
    o.info.httpType = kind mem info.httpType ∧
    o.info.lastChunk = (info.lastChunk || (decide (mem.getD 0 0 = 0) && decide (mem.getD 4 0 &&& 1 ≠ 0))) ∧
    ((mem.getD 0 0 = 0 ∨ ¬CarriesHeaders mem) → o.info.headers = info.headers) := by
  rcases forms mem with c | ⟨hl, c⟩ | ⟨h0, hl, ht⟩ | c | ⟨h0, hl, hs⟩ | ⟨h0, hl, ht, hs, hv⟩ | ⟨h0, hl, ht, hs, hv⟩
  · rw [truncated_header c] at h; simp at h
  · rw [bad_first hl c] at h; simp only [Except.ok.injEq] at h; subst h; simp at he
  · obtain ⟨o', e, -, e', -⟩ := bad_type (z := z) (length := length) (info := info) (dec := dec) (data := data) h0 hl ht
    rw [e] at h; simp only [Except.ok.injEq] at h; subst h; rw [e'] at he; simp at he
  · rw [zero_stream c] at h; simp at h
  · rw [parse_data h0 hl hs] at h
    simp only [Except.ok.injEq] at h
    subst h
    rw [if_pos h0, kind, if_pos h0]
    refine ⟨?_, ?_, ?_, ?_, ?_, ?_⟩ <;>
      simp only [leave, atPayload, h0, Option.isSome_none, Bool.false_eq_true, if_false, decide_true, Bool.true_and, implies_true]
  · obtain ⟨o', e, -, e'⟩ := bad_version (z := z) (length := length) (info := info) (dec := dec) (data := data) h0 hl ht hs hv
    rw [e] at h; simp only [Except.ok.injEq] at h; subst h; rw [e'] at he; simp at he
  · have hn : mem.getD 0 0 ≠ 0 := by rw [h0]; decide
    rw [parse_control h0 hl ht hs hv] at h
    rw [if_neg hn, kind, if_neg hn]
    simp only [hn, decide_false, Bool.false_and, Bool.or_false, false_or]
    cases hp : payload z mem ⟨true, (mem.getD 1 0).toNat, typeOf mem, mem.getD 4 0, payloadSize mem⟩
        (atPayload mem length info.streamId info.lastChunk info dec) with
    | error e => rw [hp] at h; simp [Except.map] at h
    | ok s =>
      rw [hp] at h
      simp only [Except.map, Except.ok.injEq] at h
      subst h
      have ho : (leave data (follows mem length) s).info = s.info := by unfold leave; split <;> rfl
      rw [ho]
      unfold payload at hp
      simp only at hp
      split at hp
      · rename_i t; simp only [Except.ok.injEq] at hp; subst hp
        simp [atPayload, t, CarriesHeaders]
      · rename_i t
        obtain ⟨-, -, a, b, c, d, e, -⟩ := headerPayload_ok hp
        rw [a, b, c, d, e]; simp [atPayload, t, CarriesHeaders]
      · rename_i t
        obtain ⟨-, -, a, b, c, d, e, -⟩ := headerPayload_ok hp
        rw [a, b, c, d, e]; simp [atPayload, t, CarriesHeaders]
      · rename_i t
        obtain ⟨-, -, a, b, c, d, e, -⟩ := headerPayload_ok hp
        rw [a, b, c, d, e]; simp [atPayload, t, CarriesHeaders]
      · rename_i t
        simp only [rstStream, u32At_eq, bind, Except.bind, pure, Except.pure] at hp
        split at hp
        · simp only [Except.map, Except.ok.injEq] at hp; subst hp; simp [atPayload, t, CarriesHeaders]
        · split at hp
          · simp [Except.map] at hp
          · simp only [Except.map, Except.ok.injEq] at hp; subst hp; simp [atPayload, t, CarriesHeaders]
      · rename_i t; simp only [Except.ok.injEq] at hp; subst hp
        simp [atPayload, t, CarriesHeaders]
      · rename_i t
        simp only [ping, u32At_eq, bind, Except.bind, pure, Except.pure] at hp
        split at hp
        · simp only [Except.map, Except.ok.injEq] at hp; subst hp; simp [atPayload, t, CarriesHeaders]
        · split at hp
          · simp [Except.map] at hp
          · simp only [Except.map, Except.ok.injEq] at hp; subst hp; simp [atPayload, t, CarriesHeaders]
      · rename_i t
        simp only [goaway, u32At_eq, bind, Except.bind, pure, Except.pure] at hp
        split at hp
        · simp only [Except.map, Except.ok.injEq] at hp; subst hp; simp [atPayload, t, CarriesHeaders]
        · split at hp
          · simp [Except.map] at hp
          · split at hp
            · simp only [Except.map, Except.ok.injEq] at hp; subst hp; simp [atPayload, t, CarriesHeaders]
            · split at hp <;>
              · simp only [Except.map, Except.ok.injEq] at hp; subst hp; simp [atPayload, t, CarriesHeaders]
      · rename_i t; simp only [Except.ok.injEq] at hp; subst hp
        simp [atPayload, t, CarriesHeaders]
      · rename_i t; simp only [Except.ok.injEq] at hp; subst hp
        simp [atPayload, t, CarriesHeaders]
      · rename_i t0 t1 t2 t8 t3 t4 t6 t7 t9 t10; simp only [Except.ok.injEq] at hp; subst hp
        have t : typeOf mem = 5 := by
          have u0 : typeOf mem ≠ 0 := t0
          have u1 : typeOf mem ≠ 1 := t1
          have u2 : typeOf mem ≠ 2 := t2
          have u3 : typeOf mem ≠ 3 := t3
          have u4 : typeOf mem ≠ 4 := t4
          have u6 : typeOf mem ≠ 6 := t6
          have u7 : typeOf mem ≠ 7 := t7
          have u8 : typeOf mem ≠ 8 := t8
          have u9 : typeOf mem ≠ 9 := t9
          have u10 : typeOf mem ≠ 10 := t10
          omega
        simp [atPayload, t, CarriesHeaders]

/-- The errors that the payload of a frame can lead to. -/
theorem payload_errors {f : Frame} {s s' : S Z} (hp : payload z mem f s = .ok s') (hs : s.error = none) :
    s'.error = none ∨ (s'.error = some .decompression ∧ (f.type = 1 ∨ f.type = 2 ∨ f.type = 8)) ∨
    (f.type = 7 ∧ f.length = 4 ∧ (s'.error = some .protocol ∧ stored mem (s.read + 4) 4 = 1 ∨
      s'.error = some .internal ∧ stored mem (s.read + 4) 4 = 11)) := by
  unfold payload at hp
  simp only at hp
  split at hp
  · simp only [Except.ok.injEq] at hp; subst hp; exact .inl hs
  · rename_i t
    obtain ⟨-, -, -, -, -, -, -, -, e⟩ := headerPayload_ok hp
    rcases e hs with e | e
    · exact .inl e
    · exact .inr (.inl ⟨e, .inl t⟩)
  · rename_i t
    obtain ⟨-, -, -, -, -, -, -, -, e⟩ := headerPayload_ok hp
    rcases e hs with e | e
    · exact .inl e
    · exact .inr (.inl ⟨e, .inr (.inl t)⟩)
  · rename_i t
    obtain ⟨-, -, -, -, -, -, -, -, e⟩ := headerPayload_ok hp
    rcases e hs with e | e
    · exact .inl e
    · exact .inr (.inl ⟨e, .inr (.inr t)⟩)
  · simp only [rstStream, u32At_eq, bind, Except.bind, pure, Except.pure] at hp
    split at hp
    · simp only [Except.map, Except.ok.injEq] at hp; subst hp; exact .inl hs
    · split at hp
      · simp [Except.map] at hp
      · simp only [Except.map, Except.ok.injEq] at hp; subst hp; exact .inl hs
  · simp only [Except.ok.injEq] at hp; subst hp; exact .inl hs
  · simp only [ping, u32At_eq, bind, Except.bind, pure, Except.pure] at hp
    split at hp
    · simp only [Except.map, Except.ok.injEq] at hp; subst hp; exact .inl hs
    · split at hp
      · simp [Except.map] at hp
      · simp only [Except.map, Except.ok.injEq] at hp; subst hp; exact .inl hs
  · rename_i t
    simp only [goaway, u32At_eq, bind, Except.bind, pure, Except.pure] at hp
    by_cases h4 : f.length = 4
    · by_cases hl : s.read + 4 + 4 ≤ mem.length
      · simp only [h4, ne_eq, not_true, if_false, if_pos hl] at hp
        by_cases h1 : stored mem (s.read + 4) 4 = 1
        · simp only [if_pos h1, Except.map, Except.ok.injEq] at hp; subst hp
          exact .inr (.inr ⟨t, h4, .inl ⟨rfl, h1⟩⟩)
        · by_cases h11 : stored mem (s.read + 4) 4 = 11
          · simp only [if_neg h1, if_pos h11, Except.map, Except.ok.injEq] at hp; subst hp
            exact .inr (.inr ⟨t, h4, .inr ⟨rfl, h11⟩⟩)
          · simp only [if_neg h1, if_neg h11, Except.map, Except.ok.injEq] at hp; subst hp
            exact .inl hs
      · simp [h4, if_neg hl, Except.map] at hp
    · simp only [ne_eq, h4, not_false_eq_true, if_true, Except.map, Except.ok.injEq] at hp; subst hp; exact .inl hs
  · simp only [Except.ok.injEq] at hp; subst hp; exact .inl hs
  · simp only [Except.ok.injEq] at hp; subst hp; exact .inl hs
  · simp only [Except.ok.injEq] at hp; subst hp; exact .inl hs

/-- A frame is refused, with the result false, only for a reason that is in the packet: its first byte or its type is
    unknown, its version is too high, zlib fails on its headers, or it is taken for a GOAWAY with an error. -/
theorem refused {o : Out Z} (h : parse z mem length info dec data = .ok o) :
    (o.result = some false ↔ o.error ≠ none) ∧
    (o.error = some .invalidFrame ↔ (mem.getD 0 0 ≠ 0x80 ∧ mem.getD 0 0 ≠ 0) ∨ (mem.getD 0 0 = 0x80 ∧ 11 ≤ typeOf mem)) ∧
    (o.error = some .invalidVersion ↔ mem.getD 0 0 = 0x80 ∧ typeOf mem < 11 ∧ 3 < (mem.getD 1 0).toNat) ∧
    (o.error = some .decompression → CarriesHeaders mem) ∧
    (o.error = some .protocol → typeOf mem = 7 ∧ payloadSize mem = 4 ∧ stored mem 12 4 = 1) ∧
    (o.error = some .internal → typeOf mem = 7 ∧ payloadSize mem = 4 ∧ stored mem 12 4 = 11) := by
  have res : ∀ (m : Bool) (s : S Z), (leave data m s).result = some false ↔ s.error ≠ none := by
    intro m s
    unfold leave
    cases hs : s.error with
    | none => cases m <;> simp
    | some e => simp
  have err : ∀ (m : Bool) (s : S Z), (leave data m s).error = s.error := by
    intro m s
    unfold leave
    cases hs : s.error with
    | none => simp
    | some e => simp
  rcases forms mem with c | ⟨hl, c⟩ | ⟨h0, hl, ht⟩ | c | ⟨h0, hl, hs⟩ | ⟨h0, hl, ht, hs, hv⟩ | ⟨h0, hl, ht, hs, hv⟩
  · rw [truncated_header c] at h; simp at h
  · rw [bad_first hl c] at h; simp only [Except.ok.injEq] at h; subst h
    simp only [reduceCtorEq, Option.some.injEq, ne_eq, not_false_eq_true, false_iff, true_iff, false_implies, and_true]
    exact ⟨trivial, .inl c, fun g => absurd g.1 c.1⟩
  · obtain ⟨o', e, r, e', -⟩ := bad_type (z := z) (length := length) (info := info) (dec := dec) (data := data) h0 hl ht
    rw [e] at h; simp only [Except.ok.injEq] at h; subst h; rw [e', r]
    simp only [reduceCtorEq, Option.some.injEq, ne_eq, not_false_eq_true, false_iff, true_iff, false_implies, and_true]
    exact ⟨trivial, .inr ⟨h0, ht⟩, fun g => absurd g.2.1 (by omega)⟩
  · rw [zero_stream c] at h; simp at h
  · have hn : mem.getD 0 0 ≠ 0x80 := by rw [h0]; decide
    rw [parse_data h0 hl hs] at h
    simp only [Except.ok.injEq] at h
    subst h
    rw [res, err]
    simp only [atPayload, reduceCtorEq, ne_eq, not_true, false_iff, false_implies, and_true]
    refine ⟨trivial, ?_, fun g => hn g.1⟩
    rintro (g | g)
    · exact g.2 h0
    · exact hn g.1
  · obtain ⟨o', e, r, e'⟩ := bad_version (z := z) (length := length) (info := info) (dec := dec) (data := data) h0 hl ht hs hv
    rw [e] at h; simp only [Except.ok.injEq] at h; subst h; rw [e', r]
    simp only [reduceCtorEq, Option.some.injEq, ne_eq, not_false_eq_true, false_iff, true_iff, false_implies, and_true]
    refine ⟨trivial, ?_, h0, ht, hv⟩
    rintro (g | g)
    · exact g.1 h0
    · omega
  · rw [parse_control h0 hl ht hs hv] at h
    cases hp : payload z mem ⟨true, (mem.getD 1 0).toNat, typeOf mem, mem.getD 4 0, payloadSize mem⟩
        (atPayload mem length info.streamId info.lastChunk info dec) with
    | error e => rw [hp] at h; simp [Except.map] at h
    | ok s =>
      rw [hp] at h
      simp only [Except.map, Except.ok.injEq] at h
      subst h
      rw [res, err]
      have hf : ¬((mem.getD 0 0 ≠ 0x80 ∧ mem.getD 0 0 ≠ 0) ∨ (mem.getD 0 0 = 0x80 ∧ 11 ≤ typeOf mem)) := by
        rintro (g | g)
        · exact g.1 h0
        · omega
      have hver : ¬(mem.getD 0 0 = 0x80 ∧ typeOf mem < 11 ∧ 3 < (mem.getD 1 0).toNat) := by
        rintro ⟨-, -, g⟩; omega
      have hread : (atPayload mem length info.streamId info.lastChunk info dec).read + 4 = 12 := by simp only [atPayload]
      rcases payload_errors hp (by simp only [atPayload]) with e | ⟨e, g⟩ | ⟨t, l, ⟨e, g⟩ | ⟨e, g⟩⟩
      · rw [e]
        simp only [reduceCtorEq, ne_eq, not_true, false_iff, false_implies, and_true]
        exact ⟨trivial, hf, hver⟩
      · rw [e]
        simp only [reduceCtorEq, Option.some.injEq, ne_eq, not_false_eq_true, false_iff, false_implies, and_true, true_implies]
        exact ⟨trivial, hf, hver, g⟩
      · rw [hread] at g
        rw [e]
        simp only [reduceCtorEq, Option.some.injEq, ne_eq, not_false_eq_true, false_iff, false_implies, and_true, true_and, true_implies]
        exact ⟨hf, hver, t, l, g⟩
      · rw [hread] at g
        rw [e]
        simp only [reduceCtorEq, Option.some.injEq, ne_eq, not_false_eq_true, false_iff, false_implies, true_and, true_implies]
        exact ⟨hf, hver, t, l, g⟩

/-- What a GOAWAY frame of the expected size leads to. -/
theorem payload_goaway {f : Frame} {s s' : S Z} (hp : payload z mem f s = .ok s') (hs : s.error = none) (ht : f.type = 7)
    (hl : f.length = 4) : s'.error = if stored mem (s.read + 4) 4 = 1 then some .protocol
      else if stored mem (s.read + 4) 4 = 11 then some .internal else none := by
  unfold payload at hp
  simp only [ht] at hp
  simp only [goaway, u32At_eq, bind, Except.bind, pure, Except.pure] at hp
  by_cases hl' : s.read + 4 + 4 ≤ mem.length
  · simp only [hl, ne_eq, not_true, if_false, if_pos hl'] at hp
    by_cases h1 : stored mem (s.read + 4) 4 = 1
    · simp only [if_pos h1, Except.map, Except.ok.injEq] at hp; subst hp; simp [h1]
    · by_cases h11 : stored mem (s.read + 4) 4 = 11
      · simp only [if_neg h1, if_pos h11, Except.map, Except.ok.injEq] at hp; subst hp; simp [h11]
      · simp only [if_neg h1, if_neg h11, Except.map, Except.ok.injEq] at hp; subst hp; simp [h1, h11, hs]
  · simp [hl, if_neg hl', Except.map] at hp

/-- A GOAWAY frame is refused exactly when the status read is PROTOCOL_ERROR (1) or INTERNAL_ERROR (11). -/
theorem goaway_refused {o : Out Z} (h : parse z mem length info dec data = .ok o) (h0 : mem.getD 0 0 = 0x80)
    (hv : (mem.getD 1 0).toNat ≤ 3) (ht : typeOf mem = 7) (hp : payloadSize mem = 4) :
    o.error = if stored mem 12 4 = 1 then some .protocol else if stored mem 12 4 = 11 then some .internal else none := by
  rcases forms mem with c | ⟨-, c⟩ | ⟨-, -, c⟩ | c | ⟨c, -, -⟩ | ⟨-, -, -, -, c⟩ | ⟨-, hl, ht', hs, -⟩
  · rw [truncated_header c] at h; simp at h
  · exact absurd h0 c.1
  · omega
  · rw [zero_stream c] at h; simp at h
  · rw [c] at h0; exact absurd h0 (by decide)
  · omega
  · rw [parse_control h0 hl ht' hs hv] at h
    cases hp' : payload z mem ⟨true, (mem.getD 1 0).toNat, typeOf mem, mem.getD 4 0, payloadSize mem⟩
        (atPayload mem length info.streamId info.lastChunk info dec) with
    | error e => rw [hp'] at h; simp [Except.map] at h
    | ok s =>
      rw [hp'] at h
      simp only [Except.map, Except.ok.injEq] at h
      subst h
      have e := payload_goaway hp' (by simp only [atPayload]) ht hp
      have hread : (atPayload mem length info.streamId info.lastChunk info dec).read + 4 = 12 := by simp only [atPayload]
      rw [hread] at e
      rw [← e]
      unfold leave
      cases hs : s.error with
      | none => simp
      | some e => simp

/-- After an accepted frame: if the packet goes on after it, the result is indeterminate, the read pointer is at the next
    frame and the length is that of the rest of the packet. Otherwise the result is true. -/
theorem next_frame {o : Out Z} (h : parse z mem length info dec data = .ok o) (he : o.error = none)
    (hl : 8 ≤ length) (hl32 : length < 2 ^ 32) :
    if 8 + payloadSize mem < length then
      o.result = none ∧ o.read = 8 + payloadSize mem ∧ o.length = length - (8 + payloadSize mem)
    else o.result = some true ∧ o.read = 0 ∧ o.length = length - 8 := by
  have key : ∀ s : S Z, s.current = (if payloadSize mem < sub32 length 8 then 8 + payloadSize mem else 0) →
      s.length = (if payloadSize mem < sub32 length 8 then sub32 (sub32 length 8) (payloadSize mem) else sub32 length 8) →
      (leave data (follows mem length) s).error = none →
      if 8 + payloadSize mem < length then
        (leave data (follows mem length) s).result = none ∧ (leave data (follows mem length) s).read = 8 + payloadSize mem ∧
          (leave data (follows mem length) s).length = length - (8 + payloadSize mem)
      else (leave data (follows mem length) s).result = some true ∧ (leave data (follows mem length) s).read = 0 ∧
        (leave data (follows mem length) s).length = length - 8 := by
    intro s h1 h2 h3
    have hn : s.error = none := by
      unfold leave at h3; split at h3
      · exact h3
      · rename_i hh; simpa using hh
    have e8 : sub32 length 8 = length - 8 := by unfold sub32; omega
    rw [e8] at h1 h2
    by_cases hm : 8 + payloadSize mem < length
    · have hm' : payloadSize mem < length - 8 := by omega
      rw [if_pos hm'] at h1 h2
      rw [if_pos hm]
      simp only [leave, follows, hn, h1, h2, e8, hm', Option.isSome_none, Bool.false_eq_true, if_false, decide_true, if_true]
      refine ⟨trivial, trivial, ?_⟩
      unfold sub32; omega
    · have hm' : ¬payloadSize mem < length - 8 := by omega
      rw [if_neg hm'] at h1 h2
      rw [if_neg hm]
      simp only [leave, follows, hn, h1, h2, e8, hm', Option.isSome_none, Bool.false_eq_true, if_false, decide_false]
      trivial
  rcases forms mem with c | ⟨hl, c⟩ | ⟨h0, hl, ht⟩ | c | ⟨h0, hl, hs⟩ | ⟨h0, hl, ht, hs, hv⟩ | ⟨h0, hl, ht, hs, hv⟩
  · rw [truncated_header c] at h; simp at h
  · rw [bad_first hl c] at h; simp only [Except.ok.injEq] at h; subst h; simp at he
  · obtain ⟨o', e, -, e', -⟩ := bad_type (z := z) (length := length) (info := info) (dec := dec) (data := data) h0 hl ht
    rw [e] at h; simp only [Except.ok.injEq] at h; subst h; rw [e'] at he; simp at he
  · rw [zero_stream c] at h; simp at h
  · rw [parse_data h0 hl hs] at h
    simp only [Except.ok.injEq] at h
    subst h
    exact key _ (by simp only [atPayload]) (by simp only [atPayload]) he
  · obtain ⟨o', e, -, e'⟩ := bad_version (z := z) (length := length) (info := info) (dec := dec) (data := data) h0 hl ht hs hv
    rw [e] at h; simp only [Except.ok.injEq] at h; subst h; rw [e'] at he; simp at he
  · rw [parse_control h0 hl ht hs hv] at h
    cases hp : payload z mem ⟨true, (mem.getD 1 0).toNat, typeOf mem, mem.getD 4 0, payloadSize mem⟩
        (atPayload mem length info.streamId info.lastChunk info dec) with
    | error e => rw [hp] at h; simp [Except.map] at h
    | ok s =>
      rw [hp] at h
      simp only [Except.map, Except.ok.injEq] at h
      subst h
      obtain ⟨h1, h2⟩ := payload_keeps hp
      exact key s (by rw [h1]; simp only [atPayload]) (by rw [h2]; simp only [atPayload]) he

end Verif.Props.Spdy
