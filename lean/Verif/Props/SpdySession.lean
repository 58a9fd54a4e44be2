import Verif.Props.SpdyFrames
import Verif.Spec.SpdySession
/-
C87. A SPDY session is seen as it was sent: the headers that client and server compress, each with its own context, are
decompressed with the right one, however the frames of the two sides and of their streams are interleaved.
-/
namespace Verif.Props.SpdySession
open Verif.Spdy Verif.Spec.Spdy Verif.Spec.SpdySession Verif.Props.Spdy Verif.Lemmas.Spdy Verif.Spec.Endian

variable {Z C : Type} {zl : Inflate Z} {k : Coder Z C zl}

/-- A stream has read all that a compressor has written. -/
def Follows (k : Coder Z C zl) (c : C) (z : Z) : Prop := c = k.start ∧ z = k.zstart ∨ k.InStep c z

theorem block_read {c : C} {z : Z} (h : Follows k c z) {plain : Bytes} (hp : plain.length < 16384) :
    ∃ z1, decompressHeader zl z (k.deflate c plain).2 = (z1, plain, true) ∧ Follows k (k.deflate c plain).1 z1 := by
  rcases h with ⟨rfl, rfl⟩ | h
  · obtain ⟨n, z1, z2, z3, h1, hn, h2, ⟨a, h3⟩, h4⟩ := k.first plain maxHeader hp
    refine ⟨z3, ?_, .inr h4⟩
    unfold decompressHeader
    simp only [h1, dictionaryId, h2, h3, List.length_nil, Nat.sub_zero, List.nil_append, ne_eq, not_true_eq_false, if_false,
      if_true, Nat.add_sub_cancel' hn, decide_true, Bool.true_and, beq_self_eq_true]
  · obtain ⟨z1, a, h1, h2⟩ := k.next c z plain maxHeader h hp
    refine ⟨z1, ?_, .inr h2⟩
    unfold decompressHeader
    simp [h1]

theorem be32_length (n : Nat) : (be32 n).length = 4 := rfl

section frame
variable {mem : Bytes} {length : Nat} {info : Info} {dec : Dec Z} {data : Option Nat} {z : Zlib Z}

/-- Control frames other than those with headers and GOAWAY have no effect. -/
theorem other_frame {v fl : UInt8} {t : Nat} {p rest : Bytes} (hv : v.toNat ≤ 3)
    (ht : t = 3 ∨ t = 4 ∨ t = 5 ∨ t = 6 ∨ t = 9 ∨ t = 10) (h4 : 4 ≤ p.length) (hp : p.length < 2 ^ 24)
    (hs : stored p 0 4 % 2 ^ 31 ≠ 0) :
    ∃ o, parse z (controlFrame v t fl p ++ rest) length info dec data = .ok o ∧ o.error = none ∧
      o.info.headers = info.headers ∧ o.info.streamId = info.streamId ∧
      o.info.httpType = (if t = 5 then info.httpType else 4) ∧ o.info.lastChunk = info.lastChunk ∧ o.dec = dec := by
  generalize hmem : controlFrame v t fl p ++ rest = mem
  have hcons := controlFrame_cons v t fl p rest
  rw [hmem] at hcons
  have hlen : mem.length = 8 + p.length + rest.length := by rw [hcons]; simp; omega
  have hb0 : mem.getD 0 0 = 0x80 := by rw [hcons]; rfl
  have hb1 : mem.getD 1 0 = v := by rw [hcons]; rfl
  have htype : typeOf mem = t := by
    rw [hcons]
    simp only [typeOf, stored, List.drop_succ_cons, List.drop_zero, List.take_succ_cons, List.take_zero, List.map, beNat, List.foldl, ofNat_toBitVec]
    omega
  have hsize : payloadSize mem = p.length := by rw [hcons, size_of hp]
  have hdrop8 : mem.drop 8 = p ++ rest := by rw [hcons]; rfl
  have hstream : stored mem 8 4 = stored p 0 4 := by
    rw [stored, hdrop8, stored, List.drop_zero, List.take_append_of_le_length h4]
  rw [parse_control hb0 (by omega) (by omega) (by rw [hstream]; exact hs) (by rw [hb1]; exact hv)]
  rw [htype, hsize]
  rcases ht with rfl | rfl | rfl | rfl | rfl | rfl
  · simp only [payload, rstStream, atPayload]
    split
    · exact ⟨_, rfl, by simp [leave]⟩
    · rename_i h
      have : p.length = 8 := by
        by_contra hc
        exact h (.inr hc)
      rw [u32At_eq, if_pos (by omega)]
      exact ⟨_, rfl, by simp [leave]⟩
  · exact ⟨_, rfl, by simp [leave, atPayload]⟩
  · exact ⟨_, rfl, by simp [leave, atPayload]⟩
  · simp only [payload, ping, atPayload]
    split
    · exact ⟨_, rfl, by simp [leave]⟩
    · rw [u32At_eq, if_pos (by omega)]
      exact ⟨_, rfl, by simp [leave]⟩
  · exact ⟨_, rfl, by simp [leave, atPayload]⟩
  · exact ⟨_, rfl, by simp [leave, atPayload]⟩

end frame

theorem control_length (v : UInt8) (t : Nat) (fl : UInt8) (p : Bytes) : (controlFrame v t fl p).length = 8 + p.length := by
  have := congrArg List.length (controlFrame_cons v t fl p [])
  simp at this; omega

theorem control_size (v : UInt8) (t : Nat) (fl : UInt8) (p rest : Bytes) (hp : p.length < 2 ^ 24) :
    payloadSize (controlFrame v t fl p ++ rest) = p.length := by rw [controlFrame_cons, size_of hp]

/-- What the parser makes of one frame, whatever follows it. -/
theorem one_frame {f : Sent} (hf : f.Ok) {c : C × C} {dec : Dec Z} (h1 : Follows k c.1 dec.request)
    (h2 : Follows k c.2 dec.response) (rest : Bytes) (hl : ((f.bytes k c).2 ++ rest).length < 2 ^ 32) :
    ∃ o, parse (decompressHeader zl) ((f.bytes k c).2 ++ rest) ((f.bytes k c).2 ++ rest).length {} dec none = .ok o ∧
      o.error = none ∧ o.info.httpType = f.seen.kind ∧ o.info.streamId = f.seen.id ∧ o.info.headers = f.seen.headers ∧
      o.info.lastChunk = f.seen.last ∧
      (o.info.httpType = 3 → o.data = some 8 ∧
        (((f.bytes k c).2 ++ rest).drop 8).take o.info.dataSize = f.seen.content) ∧
      (o.info.httpType ≠ 3 → f.seen.content = []) ∧
      Follows k (f.bytes k c).1.1 o.dec.request ∧ Follows k (f.bytes k c).1.2 o.dec.response ∧
      8 + payloadSize ((f.bytes k c).2 ++ rest) = (f.bytes k c).2.length := by
  cases f with
  | data id fl p =>
    obtain ⟨a, b, d⟩ := hf
    simp only [Sent.bytes] at hl ⊢
    rw [data_frame a b d hl]
    refine ⟨_, rfl, rfl, rfl, rfl, rfl, by simp [Sent.seen], fun _ => ⟨rfl, ?_⟩, fun h => absurd rfl h, h1, h2, ?_⟩
    · rw [dataFrame_cons]
      simp [Sent.seen]
    · rw [dataFrame_cons, size_of d]
      have := congrArg List.length (dataFrame_cons id fl p [])
      simp at this; omega
  | other v t fl p =>
    obtain ⟨a, b, d, e, g⟩ := hf
    simp only [Sent.bytes] at hl ⊢
    obtain ⟨o, p1, p2, p3, p4, p5, p6, p7⟩ := other_frame (z := decompressHeader zl) (length := (controlFrame v t fl p ++ rest).length)
      (info := {}) (dec := dec) (data := none) (fl := fl) (rest := rest) a b d e g
    refine ⟨o, p1, p2, p5, p4, p3, p6, fun h => ?_, fun _ => rfl, by rw [p7]; exact h1, by rw [p7]; exact h2, ?_⟩
    · rw [p5] at h; split at h <;> simp at h
    · rw [control_size _ _ _ _ _ e, control_length]
  | headers client v t fl id between hs =>
    obtain ⟨a, b, d, e, g1, g2, g3, g4⟩ := hf
    have hu : (id % 2 = 1 ∧ t = 1) ↔ client = true := by rw [g4, and_comm]
    obtain ⟨z1, hz1, hf1⟩ := block_read h1 g3
    obtain ⟨z2, hz2, hf2⟩ := block_read h2 g3
    have s1 := k.size c.1 _ g3
    have s2 := k.size c.2 _ g3
    cases client with
    | true =>
      have hu : id % 2 = 1 ∧ t = 1 := hu.2 rfl
      simp only [Sent.bytes] at hl ⊢
      have hsz : (be32 id ++ between ++ (k.deflate c.1 (headerBlock hs)).2).length < 2 ^ 24 := by
        simp only [List.length_append, be32_length]; omega
      obtain ⟨o, p1, p2, p3, p4, p5, p6, p7, p8⟩ := headers_read (z := decompressHeader zl)
        (length := (controlFrame v t fl (be32 id ++ between ++ (k.deflate c.1 (headerBlock hs)).2) ++ rest).length)
        (info := {}) (dec := dec) (data := none) (fl := fl) (rest := rest) (st := z1) (hs := hs) a b d e hsz
        (by rw [if_pos hu]; exact hz1) g1 g2 (by omega) (by simp)
      have hfl := fields p1 p2
      rw [if_pos hu] at p7 p8
      refine ⟨o, p1, p2, by simpa [Sent.seen] using p5, by simpa [Sent.seen] using p4, by simpa [Sent.seen] using p3, ?_, fun h => ?_, fun _ => rfl,
        by rw [p7]; exact hf1, by rw [p8]; exact h2, ?_⟩
      · rw [hfl.2.2.2.2.1, controlFrame_cons]
        simp [Sent.seen]
      · rw [p5] at h; simp at h; split at h <;> omega
      · rw [control_size _ _ _ _ _ hsz, control_length]
    | false =>
      have hu : ¬(id % 2 = 1 ∧ t = 1) := fun h => by simpa using hu.1 h
      simp only [Sent.bytes] at hl ⊢
      have hsz : (be32 id ++ between ++ (k.deflate c.2 (headerBlock hs)).2).length < 2 ^ 24 := by
        simp only [List.length_append, be32_length]; omega
      obtain ⟨o, p1, p2, p3, p4, p5, p6, p7, p8⟩ := headers_read (z := decompressHeader zl)
        (length := (controlFrame v t fl (be32 id ++ between ++ (k.deflate c.2 (headerBlock hs)).2) ++ rest).length)
        (info := {}) (dec := dec) (data := none) (fl := fl) (rest := rest) (st := z2) (hs := hs) a b d e hsz
        (by rw [if_neg hu]; exact hz2) g1 g2 (by omega) (by simp)
      have hfl := fields p1 p2
      rw [if_neg hu] at p7 p8
      refine ⟨o, p1, p2, by simpa [Sent.seen] using p5, by simpa [Sent.seen] using p4, by simpa [Sent.seen] using p3, ?_, fun h => ?_, fun _ => rfl,
        by rw [p7]; exact h1, by rw [p8]; exact hf2, ?_⟩
      · rw [hfl.2.2.2.2.1, controlFrame_cons]
        simp [Sent.seen]
      · rw [p5] at h; simp at h; split at h <;> omega
      · rw [control_size _ _ _ _ _ hsz, control_length]

theorem bytes_length (k : Coder Z C zl) (c : C × C) (f : Sent) : 8 ≤ (f.bytes k c).2.length := by
  cases f with
  | data id fl p =>
    have := congrArg List.length (dataFrame_cons id fl p [])
    simp only [Sent.bytes]
    simp at this; omega
  | other v t fl p => simp only [Sent.bytes, control_length]; omega
  | headers client v t fl id between hs => cases client <;> simp only [Sent.bytes, control_length] <;> omega

theorem packet_seen : ∀ (fs : List Sent) (c : C × C) (dec : Dec Z) (fuel : Nat), fs ≠ [] → (∀ f ∈ fs, f.Ok) →
    Follows k c.1 dec.request → Follows k c.2 dec.response → (packet k c fs).2.length < 2 ^ 32 → (packet k c fs).2.length ≤ fuel →
    ∃ d, look (decompressHeader zl) fuel (packet k c fs).2 (packet k c fs).2.length dec = (some (fs.map Sent.seen), d) ∧
      Follows k (packet k c fs).1.1 d.request ∧ Follows k (packet k c fs).1.2 d.response
  | [], _, _, _, hne, _, _, _, _, _ => absurd rfl hne
  | f :: fs, c, dec, fuel, _, hok, h1, h2, hl, hfu => by
    have h8 := bytes_length k c f
    simp only [packet] at hl hfu ⊢
    obtain ⟨o, p1, p2, p3, p4, p5, p6, p7, p8, p9, p10, p11⟩ := one_frame (hok f (by simp)) h1 h2 (packet k (f.bytes k c).1 fs).2 hl
    obtain ⟨fuel, rfl⟩ : ∃ n, fuel = n + 1 := ⟨fuel - 1, by rw [List.length_append] at hfu; omega⟩
    have hn := next_frame p1 p2 (by rw [List.length_append]; omega) hl
    rw [p11] at hn
    have hseen : reported ((f.bytes k c).2 ++ (packet k (f.bytes k c).1 fs).2) o = f.seen := by
      have hc : (reported ((f.bytes k c).2 ++ (packet k (f.bytes k c).1 fs).2) o).content = f.seen.content := by
        by_cases h3 : o.info.httpType = 3
        · obtain ⟨q1, q2⟩ := p7 h3
          simp only [reported, if_pos h3, q1, Option.getD_some, q2]
        · rw [p8 h3]
          simp only [reported, if_neg h3]
      have : ∀ a b : Seen, a.kind = b.kind → a.id = b.id → a.headers = b.headers → a.content = b.content → a.last = b.last → a = b := by
        rintro ⟨⟩ ⟨⟩ rfl rfl rfl rfl rfl; rfl
      exact this _ _ p3 p4 p5 hc p6
    simp only [look, p1, hseen]
    cases fs with
    | nil =>
      simp only [packet, List.append_nil, Nat.lt_irrefl, if_false] at hn
      rw [hn.1]
      exact ⟨o.dec, by simp [List.map], p9, p10⟩
    | cons g gs =>
      have hg := bytes_length k (f.bytes k c).1 g
      have hpos : 0 < (packet k (f.bytes k c).1 (g :: gs)).2.length := by
        simp only [packet, List.length_append]; omega
      rw [List.length_append] at hl hfu
      rw [if_pos (by rw [List.length_append]; omega)] at hn
      obtain ⟨n1, n2, n3⟩ := hn
      rw [List.length_append, Nat.add_sub_cancel_left] at n3
      rw [n1]
      simp only [n2, n3, List.drop_left]
      obtain ⟨d, e1, e2, e3⟩ := packet_seen (g :: gs) (f.bytes k c).1 o.dec fuel (by simp) (fun x hx => hok x (by simp [hx])) p9 p10
        (by omega) (by omega)
      rw [e1]
      exact ⟨d, by simp [List.map], e2, e3⟩

/-- A session is seen as it was sent: for every frame of every packet its kind, the number of its stream, its headers, its
    content and whether it is the last of its stream. The frames of both sides and of any number of streams may be
    interleaved and packed into packets in any way, if no frame is split. Missing: frames that are split, GOAWAY frames,
    headers that the client sends in HEADERS frames, blocks of 16 KiB or more. -/
theorem session_seen_partial (k : Coder Z C zl) (ps : List (List Sent)) (hne : ∀ p ∈ ps, p ≠ []) (hok : ∀ p ∈ ps, ∀ f ∈ p, f.Ok)
    (hl : ∀ b ∈ packets k (k.start, k.start) ps, b.length < 2 ^ 32) :
    lookAll (decompressHeader zl) (newDec k.zstart) (packets k (k.start, k.start) ps) = ps.map (fun p => some (p.map Sent.seen)) := by
  suffices h : ∀ (ps : List (List Sent)) (c : C × C) (dec : Dec Z), (∀ p ∈ ps, p ≠ []) → (∀ p ∈ ps, ∀ f ∈ p, f.Ok) →
      (∀ b ∈ packets k c ps, b.length < 2 ^ 32) → Follows k c.1 dec.request → Follows k c.2 dec.response →
      lookAll (decompressHeader zl) dec (packets k c ps) = ps.map (fun p => some (p.map Sent.seen)) from
    h ps _ _ hne hok hl (.inl ⟨rfl, rfl⟩) (.inl ⟨rfl, rfl⟩)
  intro ps
  induction ps with
  | nil => intros; rfl
  | cons p ps ih =>
    intro c dec hne hok hl h1 h2
    simp only [packets, lookAll] at hl ⊢
    obtain ⟨d, e1, e2, e3⟩ := packet_seen p c dec _ (hne p (by simp)) (hok p (by simp)) h1 h2 (hl _ (by simp)) (Nat.le_refl _)
    rw [e1, ih _ d (fun q hq => hne q (by simp [hq])) (fun q hq => hok q (by simp [hq])) (fun b hb => hl b (by simp [hb])) e2 e3]
    rfl

/-- A block that asks for another dictionary than that of SPDY is refused. -/
theorem other_dictionary {v fl : UInt8} {t id : Nat} {between block rest : Bytes} {length : Nat} {info : Info} {dec : Dec Z}
    {data : Option Nat} (hv : v.toNat ≤ 3) (ht : t = 1 ∧ between.length = 6 ∨ (t = 2 ∨ t = 8) ∧ between.length = 2)
    (h0 : 0 < id) (hid : id < 2 ^ 31) (hp : (be32 id ++ between ++ block).length < 2 ^ 24)
    (hz : ∀ z, (zl.run z block 16384).code = .needDict ∧ (zl.run z block 16384).adler ≠ adler32 dictionary) :
    ∃ o, parse (decompressHeader zl) (controlFrame v t fl (be32 id ++ between ++ block) ++ rest) length info dec data = .ok o ∧
      o.result = some false ∧ o.error = some .decompression ∧ o.info.headers = info.headers := by
  refine headers_refused hv ht h0 hid hp (st := (zl.run (if id % 2 = 1 ∧ t = 1 then dec.request else dec.response) block 16384).state)
    (out := (zl.run (if id % 2 = 1 ∧ t = 1 then dec.request else dec.response) block 16384).out) ?_
  generalize (if id % 2 = 1 ∧ t = 1 then dec.request else dec.response) = st
  have ha : (zl.run st block 16384).adler ≠ dictionaryId := (hz st).2
  simp only [decompressHeader, maxHeader, (hz st).1, if_true, ne_eq, ha, not_false_eq_true]

/-- C87: a block is decompressed exactly if zlib takes all of it without an error. -/
theorem block_taken (z z' : Z) (block out : Bytes) : decompressHeader zl z block = (z', out, true) ↔ Takes zl z block out z' := by
  unfold decompressHeader
  constructor
  · intro h
    dsimp only at h
    split at h
    · next hn =>
      split at h
      · cases h
      · next ha =>
        have ha : (zl.run z block maxHeader).adler = dictionaryId := by simpa using ha
        split at h
        · next hc =>
          simp only [Prod.mk.injEq, Bool.and_eq_true, decide_eq_true_eq, beq_iff_eq] at h
          obtain ⟨rfl, rfl, hq, hu⟩ := h
          exact .dictionary rfl hn ha (Prod.ext rfl hc) rfl hq hu
        · cases h
    · simp only [Prod.mk.injEq, Bool.and_eq_true, decide_eq_true_eq, beq_iff_eq] at h
      obtain ⟨rfl, rfl, hq, hu⟩ := h
      exact .plain rfl hq hu
  · intro h
    cases h with
    | plain hr hc hu =>
      subst hr
      dsimp only
      rw [if_neg (by rw [show (zl.run z block maxHeader).code = .ok from hc]; decide)]
      simp only [Prod.mk.injEq, Bool.and_eq_true, decide_eq_true_eq, beq_iff_eq]
      exact ⟨rfl, rfl, hc, hu⟩
    | dictionary hr hn ha hs hq hc hu =>
      subst hr; subst hq
      have ha : (zl.run z block maxHeader).adler = dictionaryId := ha
      have hn : (zl.run z block maxHeader).code = .needDict := hn
      have hs : zl.setDictionary (zl.run z block maxHeader).state dictionary = _ := hs
      simp only [hn, if_true, ha, ne_eq, not_true_eq_false, if_false, hs, Prod.mk.injEq, Bool.and_eq_true, decide_eq_true_eq, beq_iff_eq]
      exact ⟨rfl, rfl, hc, hu⟩

/-- C87: if zlib writes no more than it is given room for, what is decompressed fits into the buffer of 16 KiB. -/
theorem block_fits (hz : ∀ z i n, (zl.run z i n).out.length ≤ n) (z : Z) (block : Bytes) :
    (decompressHeader zl z block).2.1.length ≤ 16384 := by
  have h1 : (zl.run z block maxHeader).out.length ≤ 16384 := hz z block maxHeader
  unfold decompressHeader
  dsimp only
  split
  · split
    · exact h1
    · split
      · have : maxHeader = 16384 := rfl
        rw [List.length_append]
        exact Nat.le_trans (Nat.add_le_add_left (hz _ _ _) _) (by omega)
      · exact h1
  · exact h1

/-! ### A simple zlib -/

/-- The state of a stream: the header is expected, the dictionary is needed, `n` bytes were decompressed. -/
inductive Toy where
  | head | dict | body (n : Nat)
  deriving Repr, DecidableEq

/-- Every byte is changed in a way that depends on how many came before it. -/
def hide : Nat → Bytes → Bytes
  | _, [] => []
  | n, b :: r => (b + UInt8.ofNat n) :: hide (n + 1) r

def unhide : Nat → Bytes → Bytes
  | _, [] => []
  | n, b :: r => (b - UInt8.ofNat n) :: unhide (n + 1) r

def toyRun : Toy → Bytes → Nat → Inflated Toy
  | .head, input, _ => if input.length < 6 then ⟨.head, 0, [], .other, 0⟩ else ⟨.dict, 6, [], .needDict, stored input 2 4⟩
  | .dict, _, _ => ⟨.dict, 0, [], .needDict, 0⟩
  | .body n, input, room => ⟨.body (n + min input.length room), min input.length room, unhide n (input.take room), .ok, 0⟩

def toy : Inflate Toy where
  run := toyRun
  setDictionary z d := if z = .dict ∧ d = dictionary then (.body 0, .ok) else (z, .other)

theorem hide_length : ∀ (n : Nat) (b : Bytes), (hide n b).length = b.length
  | _, [] => rfl
  | n, _ :: r => by simp [hide, hide_length (n + 1) r]

theorem unhide_length : ∀ (n : Nat) (b : Bytes), (unhide n b).length = b.length
  | _, [] => rfl
  | n, _ :: r => by simp [unhide, unhide_length (n + 1) r]

/-- It writes no more than there is room for. -/
example (z : Toy) (i : Bytes) (n : Nat) : (toy.run z i n).out.length ≤ n := by
  cases z with
  | head => show (toyRun .head i n).out.length ≤ n; simp only [toyRun]; split <;> exact Nat.zero_le _
  | dict => exact Nat.zero_le _
  | body m =>
    show (unhide m (i.take n)).length ≤ n
    rw [unhide_length]
    exact List.length_take_le ..

theorem unhide_hide : ∀ (n : Nat) (b : Bytes), unhide n (hide n b) = b
  | _, [] => rfl
  | n, b :: r => by simp [hide, unhide, unhide_hide (n + 1) r, UInt8.add_sub_cancel]

/-- The checksum of the dictionary. -/
theorem dictionary_id : adler32 dictionary = 3751956914 := by decide +kernel

def toyDeflate : Option Nat → Bytes → Option Nat × Bytes
  | none, p => (some p.length, [0x78, 0xBB] ++ be32 3751956914 ++ hide 0 p)
  | some n, p => (some (n + p.length), hide n p)

def toyCoder : Coder Toy (Option Nat) toy where
  deflate := toyDeflate
  start := none
  zstart := .head
  InStep c z := ∃ n, c = some n ∧ z = .body n
  first plain room h := by
    have e : ([0x78, 0xBB] ++ be32 3751956914 ++ hide 0 plain).length = 6 + plain.length := by
      simp [hide_length, be32_length]; omega
    have ed : ([0x78, 0xBB] ++ be32 3751956914 ++ hide 0 plain).drop 6 = hide 0 plain := rfl
    refine ⟨6, .dict, .body 0, .body plain.length, ?_, ?_, by simp [toy], ⟨0, ?_⟩, plain.length, rfl, rfl⟩
    · simp only [toyDeflate, toy, toyRun]
      rw [if_neg (by omega), dictionary_id]
      have : stored ([0x78, 0xBB] ++ be32 3751956914 ++ hide 0 plain) 2 4 = 3751956914 := by
        rw [stored]
        have : (([0x78, 0xBB] ++ be32 3751956914 ++ hide 0 plain).drop 2).take 4 = be32 3751956914 := rfl
        rw [this]; decide +kernel
      rw [this]
    · simp only [toyDeflate]; omega
    · simp only [toyDeflate, toy, toyRun]
      rw [ed, e, hide_length, List.take_of_length_le (by rw [hide_length]; omega), unhide_hide]
      simp only [Inflated.mk.injEq, Toy.body.injEq, and_true]
      omega
  next c z plain room h hr := by
    obtain ⟨n, rfl, rfl⟩ := h
    refine ⟨.body (n + plain.length), 0, ?_, n + plain.length, rfl, rfl⟩
    simp only [toyDeflate, toy, toyRun]
    rw [hide_length, List.take_of_length_le (by rw [hide_length]; omega), unhide_hide, Nat.min_eq_left (by omega)]
  size c plain h := by
    cases c with
    | none =>
      have e : ([0x78, 0xBB] ++ be32 3751956914 ++ hide 0 plain).length = 6 + plain.length := by
        simp [hide_length, be32_length]; omega
      simp only [toyDeflate]; omega
    | some n => simp only [toyDeflate, hide_length]; omega

/-- A session with two requests, their responses and a pushed stream. -/
def conversation : List (List Sent) :=
  [[.headers true 2 1 1 1 [0, 0, 0, 0, 0, 0] [(b! "method", b! "GET"), (b! "url", b! "/a")],
    .headers true 2 1 1 3 [0, 0, 0, 0, 0, 0] [(b! "method", b! "GET"), (b! "url", b! "/b")]],
   [.headers false 2 2 0 3 [0, 0] [(b! "status", b! "200")], .data 3 0 (b! "bb"), .data 3 1 (b! "b"),
    .headers false 2 1 0 2 [0, 0, 0, 0, 0, 1] [(b! "url", b! "/style")]],
   [.other 2 6 0 (be32 1)],
   [.headers false 2 2 0 1 [0, 0] [(b! "status", b! "404")], .data 2 1 (b! "s"), .data 1 1 []]]

example : lookAll (decompressHeader toy) (newDec .head) (packets toyCoder (none, none) conversation) =
      conversation.map (fun p => some (p.map Sent.seen)) ∧
    (conversation.map (·.map Sent.seen)).getLast? =
      some [⟨2, 1, [(b! "status", b! "404")], [], false⟩, ⟨3, 2, [], b! "s", true⟩, ⟨3, 1, [], [], true⟩] := by
  decide +kernel

instance (f : Sent) : Decidable f.Ok := by cases f <;> unfold Sent.Ok <;> infer_instance

example : (∀ p ∈ conversation, p ≠ []) ∧ (∀ p ∈ conversation, ∀ f ∈ p, f.Ok) ∧
    ∀ b ∈ packets toyCoder (toyCoder.start, toyCoder.start) conversation, b.length < 2 ^ 32 := by decide +kernel

/-! ### What is missing -/

def get (id : Nat) : Sent := .headers true 2 1 0 id [0, 0, 0, 0, 0, 0] [(b! "method", b! "GET"), (b! "url", b! "/a")]
def ok (id : Nat) : Sent := .headers false 2 2 0 id [0, 0] [(b! "status", b! "200")]

def sees (ps : List (List Sent)) : List (Option (List Seen)) :=
  lookAll (decompressHeader toy) (newDec .head) (packets toyCoder (none, none) ps)

/-- More headers that a client sends in a HEADERS frame are decompressed with the context of the server: they cannot be
    read. -/
theorem client_headers_unread :
    sees [[get 1], [ok 1], [.headers false 2 8 0 1 [0, 0] [(b! "a", b! "b")]]] =
      [some [(get 1).seen], some [(ok 1).seen], some [⟨0, 1, [(b! "a", b! "b")], [], false⟩]] ∧
    sees [[get 1], [ok 1], [.headers true 2 8 0 1 [0, 0] [(b! "a", b! "b")]]] =
      [some [(get 1).seen], some [(ok 1).seen], none] := by decide +kernel

theorem hide_take : ∀ (n m : Nat) (b : Bytes), (hide n b).take m = hide n (b.take m)
  | _, 0, _ => rfl
  | _, _ + 1, [] => rfl
  | n, m + 1, b :: r => by simp [hide, hide_take (n + 1) m r]

theorem unhide_later : ∀ (n : Nat) (b : Bytes), unhide n (hide (n + 1) b) = b.map (· + 1)
  | _, [] => rfl
  | n, b :: r => by
    simp only [hide, unhide, unhide_later (n + 1) r, List.map_cons, List.cons.injEq, and_true, UInt8.ofNat_add]
    rw [UInt8.add_comm (UInt8.ofNat n), ← UInt8.add_assoc, UInt8.add_sub_cancel]
    rfl

/-- A block of headers of more than 16 KiB is refused, and the rest of it is not given to zlib: the stream is no longer in
    step with the compressor, and what comes out for the next block of this side, with the result true, is not what went
    in. -/
theorem large_block_breaks_session (n : Nat) (large next : Bytes) (hl : large.length = 16385) (hn : next.length < 16384) :
    ∃ z out z', decompressHeader toy (.body n) (toyDeflate (some n) large).2 = (z, out, false) ∧
      decompressHeader toy z (toyDeflate (toyDeflate (some n) large).1 next).2 = (z', next.map (· + 1), true) := by
  refine ⟨.body (n + 16384), large.take 16384, .body (n + 16384 + next.length), ?_, ?_⟩
  · simp [decompressHeader, toy, toyRun, toyDeflate, hide_length, hl, maxHeader, hide_take, unhide_hide]
  · have e : n + 16385 = n + 16384 + 1 := by omega
    simp only [decompressHeader, toy, toyRun, toyDeflate, hl, maxHeader, hide_length, e]
    rw [List.take_of_length_le (by rw [hide_length]; omega), unhide_later, Nat.min_eq_left (by omega)]
    simp

/-- A program that begins to look in the middle of a session does not see any headers of it. -/
theorem not_from_the_middle :
    lookAll (decompressHeader toy) (newDec .head) (packets toyCoder (none, none) [[get 1], [get 3], [get 5], [.data 1 1 []]]).tail =
      [none, none, some [⟨3, 1, [], [], true⟩]] := by decide +kernel

/-- After a frame that is refused the rest of its packet is not seen. -/
theorem rest_of_packet_lost :
    sees [[.other 4 4 0 (be32 1), get 1], [get 3]] = [none, none] := by decide +kernel

end Verif.Props.SpdySession
