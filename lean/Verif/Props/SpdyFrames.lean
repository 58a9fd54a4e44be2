import Verif.Props.SpdySafe
/-
C50, continued. Frames that are written according to the standard are read back: data frames, one or several in a packet,
and the headers of SYN_STREAM, SYN_REPLY and HEADERS frames.
-/
namespace Verif.Props.Spdy
open Verif.Spdy Verif.Spec.Spdy Verif.Lemmas.Spdy Verif.Spec.Endian

variable {Z : Type} {z : Zlib Z} {mem : Bytes} {length : Nat} {info : Info} {dec : Dec Z} {data : Option Nat}

theorem ofNat_toBitVec (n : Nat) : (UInt8.ofNat n).toBitVec.toNat = n % 256 := by
  change (UInt8.ofNat n).toNat = _
  simp

theorem dataFrame_cons (id : Nat) (fl : UInt8) (p rest : Bytes) : dataFrame id fl p ++ rest =
    UInt8.ofNat (id / 65536 / 256) :: UInt8.ofNat (id / 65536) :: UInt8.ofNat (id / 256) :: UInt8.ofNat id :: fl ::
      UInt8.ofNat (p.length / 65536) :: UInt8.ofNat (p.length / 256) :: UInt8.ofNat p.length :: (p ++ rest) := by
  simp [dataFrame, be32, be24, be16]

theorem controlFrame_cons (v : UInt8) (t : Nat) (fl : UInt8) (p rest : Bytes) : controlFrame v t fl p ++ rest =
    0x80 :: v :: UInt8.ofNat (t / 256) :: UInt8.ofNat t :: fl ::
      UInt8.ofNat (p.length / 65536) :: UInt8.ofNat (p.length / 256) :: UInt8.ofNat p.length :: (p ++ rest) := by
  simp [controlFrame, be24, be16]

theorem size_of {a b c d e : UInt8} {n : Nat} {r : Bytes} (h : n < 2 ^ 24) :
    payloadSize (a :: b :: c :: d :: e :: UInt8.ofNat (n / 65536) :: UInt8.ofNat (n / 256) :: UInt8.ofNat n :: r) = n := by
  simp only [payloadSize, stored, List.drop_succ_cons, List.drop_zero, List.take_succ_cons, List.take_zero, List.map, beNat, List.foldl,
    ofNat_toBitVec]
  omega

/-- A data frame is read as it was written, and its data is what comes after the eight bytes of its header. -/
theorem data_frame {id : Nat} {fl : UInt8} {p rest : Bytes} (h0 : 0 < id) (hid : id < 2 ^ 24) (hp : p.length < 2 ^ 24)
    (hl : (dataFrame id fl p ++ rest).length < 2 ^ 32) :
    parse z (dataFrame id fl p ++ rest) (dataFrame id fl p ++ rest).length info dec data = .ok
      { result := if rest = [] then some true else none
        error := none
        info := { info with httpType := 3, streamId := id, dataOffset := (info.dataOffset + 8) % 2 ^ 32, dataSize := p.length, lastChunk := info.lastChunk || decide (fl &&& 1 ≠ 0) }
        length := if rest = [] then p.length else rest.length
        read := if rest = [] then 0 else (dataFrame id fl p).length
        data := some 8
        dec := dec } := by
  have hlen : (dataFrame id fl p).length = 8 + p.length := by
    have := congrArg List.length (dataFrame_cons id fl p [])
    simp at this; omega
  have hlen' : (dataFrame id fl p ++ rest).length = 8 + p.length + rest.length := by
    rw [List.length_append, hlen]
  have hs : stored (dataFrame id fl p ++ rest) 0 4 = id := by
    rw [dataFrame_cons]
    simp only [stored, List.drop_zero, List.take_succ_cons, List.take_zero, List.map, beNat, List.foldl, ofNat_toBitVec]
    omega
  have hz : payloadSize (dataFrame id fl p ++ rest) = p.length := by rw [dataFrame_cons, size_of hp]
  have hf : (dataFrame id fl p ++ rest).getD 4 0 = fl := by rw [dataFrame_cons]; rfl
  have hb : (dataFrame id fl p ++ rest).getD 0 0 = 0 := by
    rw [dataFrame_cons]
    have : id / 65536 / 256 = 0 := by omega
    rw [this]; rfl
  rw [parse_data hb (by omega) (by rw [hs]; omega)]
  have e8 : sub32 (dataFrame id fl p ++ rest).length 8 = p.length + rest.length := by
    rw [hlen']; unfold sub32; rw [hlen'] at hl; omega
  simp only [atPayload, follows, hz, hs, hf, e8, leave, Option.isSome_none, Bool.false_eq_true, if_false]
  by_cases hr : rest = []
  · subst hr
    simp
  · have : 0 < rest.length := List.length_pos_iff.mpr hr
    have hlt : p.length < p.length + rest.length := by omega
    have e9 : sub32 (p.length + rest.length) p.length = rest.length := by
      unfold sub32; rw [hlen'] at hl; omega
    simp only [hlt, if_true, decide_true, if_neg hr, e9, hlen]

example : (parse copy (dataFrame 5 1 (b! "hello") ++ dataFrame 5 0 []) 21 {} ⟨(), (), []⟩ none).map
    (fun o => (o.result, o.info.streamId, o.info.dataSize, o.info.lastChunk, o.read, o.length)) =
      .ok (none, 5, 5, true, 13, 8) := by decide +kernel

/-- All frames of a packet, each parsed with fresh information from where the one before it ended, as long as the result
    is indeterminate. -/
def walk (z : Zlib Z) : Nat → Bytes → Nat → Dec Z → Option (List Info)
  | 0, _, _, _ => none
  | fuel + 1, mem, length, dec =>
    match parse z mem length {} dec none with
    | .ok o =>
      match o.result with
      | none => (walk z fuel (mem.drop o.read) o.length o.dec).map (o.info :: ·)
      | some true => some [o.info]
      | some false => none
    | .error _ => none

/-- A packet of data frames: every frame is found, in order. -/
theorem all_data_frames (fs : List (Nat × UInt8 × Bytes)) (hne : fs ≠ [])
    (hf : ∀ f ∈ fs, 0 < f.1 ∧ f.1 < 2 ^ 24 ∧ f.2.2.length < 2 ^ 24)
    (hl : (fs.flatMap (fun f => dataFrame f.1 f.2.1 f.2.2)).length < 2 ^ 32) :
    walk z fs.length (fs.flatMap (fun f => dataFrame f.1 f.2.1 f.2.2))
        (fs.flatMap (fun f => dataFrame f.1 f.2.1 f.2.2)).length dec =
      some (fs.map (fun f => { httpType := 3, streamId := f.1, dataOffset := 8, dataSize := f.2.2.length, lastChunk := decide (f.2.1 &&& 1 ≠ 0) })) := by
  induction fs with
  | nil => exact absurd rfl hne
  | cons f fs ih =>
    obtain ⟨id, fl, p⟩ := f
    obtain ⟨h1, h2, h3⟩ := hf _ (List.mem_cons_self ..)
    simp only [List.flatMap_cons, List.length_cons, walk, List.map_cons] at hl ⊢
    rw [data_frame h1 h2 h3 hl]
    by_cases hr : fs = []
    · subst hr
      simp
    · have hrest : fs.flatMap (fun f => dataFrame f.1 f.2.1 f.2.2) ≠ [] := by
        cases fs with
        | nil => exact absurd rfl hr
        | cons g gs =>
          rw [List.flatMap_cons, dataFrame_cons]
          exact List.cons_ne_nil _ _
      simp only [if_neg hrest]
      rw [List.drop_left, ih hr (fun g hg => hf g (List.mem_cons_of_mem _ hg))
        (by rw [List.length_append] at hl; omega)]
      simp

/-! ### Headers -/

theorem hbyte_at {pre : List (Option UInt8)} {b : UInt8} {post : List (Option UInt8)} {i : Nat} (hi : i = pre.length) :
    hbyte (pre ++ some b :: post) i = .ok b := by
  subst hi
  simp [hbyte]

theorem hu16_at {pre post : List (Option UInt8)} {n i : Nat} (hn : n < 65536) (hi : i = pre.length) :
    hu16 (pre ++ (be16 n).map some ++ post) i = .ok n := by
  unfold hu16 be16
  have e1 : pre ++ List.map some [UInt8.ofNat (n / 256), UInt8.ofNat n] ++ post =
      pre ++ some (UInt8.ofNat (n / 256)) :: (some (UInt8.ofNat n) :: post) := by simp
  have e2 : pre ++ some (UInt8.ofNat (n / 256)) :: (some (UInt8.ofNat n) :: post) =
      (pre ++ [some (UInt8.ofNat (n / 256))]) ++ some (UInt8.ofNat n) :: post := by simp
  rw [e1, hbyte_at hi, e2, hbyte_at (by simp [hi])]
  simp only [bind, Except.bind, pure, Except.pure, Props.IntBytes.be2, beNat, List.foldl, ofNat_toBitVec]
  congr 1; omega

theorem hbytes_at {s : Bytes} : ∀ {pre post : List (Option UInt8)} {i : Nat}, i = pre.length →
    hbytes (pre ++ s.map some ++ post) i s.length = .ok s := by
  induction s with
  | nil => intro pre post i _; rfl
  | cons b s ih =>
    intro pre post i hi
    have e1 : pre ++ (b :: s).map some ++ post = pre ++ some b :: (s.map some ++ post) := by simp
    have e2 : pre ++ some b :: (s.map some ++ post) = (pre ++ [some b]) ++ s.map some ++ post := by simp
    simp only [List.length_cons, hbytes, bind, Except.bind, pure, Except.pure]
    rw [e1, hbyte_at hi]
    simp only
    rw [e2, ih (by simp [hi])]

/-- The bytes of one header. -/
def pairOf (e : Bytes × Bytes) : Bytes := be16 e.1.length ++ e.1 ++ be16 e.2.length ++ e.2

theorem pairs_at : ∀ (hs : List (Bytes × Bytes)) {pre post : List (Option UInt8)} {i : Nat} {acc : List (Bytes × Bytes)},
    (∀ e ∈ hs, e.1.length < 65536 ∧ e.2.length < 65536) → i = pre.length →
    pairs (pre ++ (hs.flatMap pairOf).map some ++ post) i acc hs.length =
      .ok (hs.foldl (fun a e => insertHeader a e.1 e.2) acc)
  | [], pre, post, i, acc, _, _ => rfl
  | (n, v) :: hs, pre, post, i, acc, hh, hi => by
    obtain ⟨h1, h2⟩ := hh _ (List.mem_cons_self ..)
    have l16 : ∀ n, (be16 n).length = 2 := fun _ => rfl
    simp only [List.length_cons, pairs, bind, Except.bind, List.foldl]
    have e : pre ++ (((n, v) :: hs).flatMap pairOf).map some ++ post =
        pre ++ (be16 n.length).map some ++ (n.map some ++ (be16 v.length).map some ++ v.map some ++
          (hs.flatMap pairOf).map some ++ post) := by
      simp [pairOf, List.flatMap_cons]
    rw [e, hu16_at h1 hi]
    simp only
    have e : pre ++ (be16 n.length).map some ++ (n.map some ++ (be16 v.length).map some ++ v.map some ++
          (hs.flatMap pairOf).map some ++ post) =
        (pre ++ (be16 n.length).map some) ++ n.map some ++ ((be16 v.length).map some ++ v.map some ++
          (hs.flatMap pairOf).map some ++ post) := by simp
    rw [e, hbytes_at (by simp [l16, hi])]
    simp only
    have e : (pre ++ (be16 n.length).map some) ++ n.map some ++ ((be16 v.length).map some ++ v.map some ++
          (hs.flatMap pairOf).map some ++ post) =
        (pre ++ (be16 n.length).map some ++ n.map some) ++ (be16 v.length).map some ++ (v.map some ++
          (hs.flatMap pairOf).map some ++ post) := by simp
    rw [e, hu16_at h2 (by simp [l16, hi]; omega)]
    simp only
    have e : (pre ++ (be16 n.length).map some ++ n.map some) ++ (be16 v.length).map some ++ (v.map some ++
          (hs.flatMap pairOf).map some ++ post) =
        (pre ++ (be16 n.length).map some ++ n.map some ++ (be16 v.length).map some) ++ v.map some ++ (
          (hs.flatMap pairOf).map some ++ post) := by simp
    rw [e, hbytes_at (by simp [l16, hi]; omega)]
    simp only
    have e : (pre ++ (be16 n.length).map some ++ n.map some ++ (be16 v.length).map some) ++ v.map some ++ (
          (hs.flatMap pairOf).map some ++ post) =
        (pre ++ (be16 n.length).map some ++ n.map some ++ (be16 v.length).map some ++ v.map some) ++
          (hs.flatMap pairOf).map some ++ post := by simp
    rw [e]
    exact pairs_at hs (fun g hg => hh g (List.mem_cons_of_mem _ hg)) (by simp [l16, hi]; omega)

private theorem foldl_insert (hs : List (Bytes × Bytes)) : ∀ acc : List (Bytes × Bytes),
    hs.foldl (fun a e => insertHeader a e.1 e.2) acc = acc ++ (firsts hs).filter (fun x => !acc.any (fun e => e.1 == x.1)) := by
  induction hs with
  | nil => intro acc; simp [firsts]
  | cons e hs ih =>
    intro acc
    rw [List.foldl_cons, ih, firsts]
    by_cases h : acc.any (fun x => x.1 == e.1) = true
    · have e1 : insertHeader acc e.1 e.2 = acc := by rw [insertHeader, if_pos h]
      rw [e1, List.filter_cons_of_neg (by simp only [h]; decide), List.filter_filter]
      congr 1
      apply List.filter_congr
      intro x _
      by_cases hx : x.1 = e.1
      · rw [hx, h]; simp
      · simp [hx]
    · have e1 : insertHeader acc e.1 e.2 = acc ++ [e] := by rw [insertHeader, if_neg h]
      rw [Bool.not_eq_true] at h
      rw [e1, List.filter_cons_of_pos (by simp only [h]; decide), List.filter_filter, List.append_assoc, List.singleton_append]
      congr 2
      apply List.filter_congr
      intro x _
      by_cases hx : x.1 = e.1
      · simp [hx]
      · simp [hx, Ne.symm hx]

private theorem firsts_append (acc hs : List (Bytes × Bytes)) (ha : (acc.map Prod.fst).Nodup) :
    firsts (acc ++ hs) = acc ++ (firsts hs).filter (fun x => !acc.any (fun e => e.1 == x.1)) := by
  induction acc with
  | nil => exact (List.filter_eq_self.2 (by simp)).symm
  | cons a acc ih =>
    rw [List.map_cons, List.nodup_cons] at ha
    rw [List.cons_append, firsts, ih ha.2, List.filter_append, List.filter_filter, List.cons_append]
    congr 2
    · rw [List.filter_eq_self]
      intro x hx
      simp only [ne_eq, decide_not, Bool.not_eq_true', decide_eq_false_iff_not]
      exact fun he => ha.1 (he ▸ List.mem_map_of_mem hx)
    · apply List.filter_congr
      intro x _
      by_cases hx : x.1 = a.1
      · simp [hx]
      · simp [hx, Ne.symm hx]

/-- The headers of a frame are those that were written, if zlib gives back what was compressed. The frame may be a
    SYN_STREAM (type 1, with an associated stream and a priority before the block), a SYN_REPLY or a HEADERS frame (types 2
    and 8, with two unused bytes). Of several headers with the same name the first is kept. -/
theorem headers_read {v fl : UInt8} {t id : Nat} {between block rest : Bytes} {hs : List (Bytes × Bytes)} {st : Z}
    (hv : v.toNat ≤ 3) (ht : t = 1 ∧ between.length = 6 ∨ (t = 2 ∨ t = 8) ∧ between.length = 2)
    (h0 : 0 < id) (hid : id < 2 ^ 31) (hp : (be32 id ++ between ++ block).length < 2 ^ 24)
    (hz : z (if id % 2 = 1 ∧ t = 1 then dec.request else dec.response) block = (st, headerBlock hs, true))
    (hc : hs.length < 65536) (hh : ∀ e ∈ hs, e.1.length < 65536 ∧ e.2.length < 65536)
    (hb : (headerBlock hs).length ≤ 16384) (hi : (info.headers.map Prod.fst).Nodup) :
    ∃ o, parse z (controlFrame v t fl (be32 id ++ between ++ block) ++ rest) length info dec data = .ok o ∧
      o.error = none ∧ o.info.headers = firsts (info.headers ++ hs) ∧
      o.info.streamId = id ∧ o.info.httpType = (if t = 8 then info.httpType else t) ∧
      o.info.dataSize = (be32 id ++ between ++ block).length ∧
      o.dec.request = (if id % 2 = 1 ∧ t = 1 then st else dec.request) ∧
      o.dec.response = (if id % 2 = 1 ∧ t = 1 then dec.response else st) := by
  rw [firsts_append _ _ hi, ← foldl_insert]
  have l32 : (be32 id).length = 4 := rfl
  generalize hpay : be32 id ++ between ++ block = p at *
  generalize hmem : controlFrame v t fl p ++ rest = mem
  have hcons := controlFrame_cons v t fl p rest
  rw [hmem] at hcons
  have hplen : p.length = 4 + between.length + block.length := by
    rw [← hpay]; simp [l32]; omega
  have hlen : mem.length = 8 + p.length + rest.length := by rw [hcons]; simp; omega
  have hb0 : mem.getD 0 0 = 0x80 := by rw [hcons]; rfl
  have hb1 : mem.getD 1 0 = v := by rw [hcons]; rfl
  have htt : t = 1 ∨ t = 2 ∨ t = 8 := by omega
  have htype : typeOf mem = t := by
    rw [hcons]
    simp only [typeOf, stored, List.drop_succ_cons, List.drop_zero, List.take_succ_cons, List.take_zero, List.map, beNat, List.foldl, ofNat_toBitVec]
    omega
  have hsize : payloadSize mem = p.length := by rw [hcons, size_of hp]
  have hdrop8 : mem.drop 8 = p ++ rest := by rw [hcons]; rfl
  have hstream : stored mem 8 4 = id := by
    rw [stored, hdrop8, ← hpay]
    simp only [be32, be16, List.cons_append, List.nil_append, List.append_assoc, List.take_succ_cons, List.take_zero, List.map, beNat, List.foldl, ofNat_toBitVec]
    omega
  have hmod : id % 2 ^ 31 = id := Nat.mod_eq_of_lt hid
  rw [parse_control hb0 (by omega) (by omega) (by rw [hstream]; omega) (by rw [hb1]; exact hv)]
  have hread : ∀ s : S Z, s.read = 8 → s.dec = dec → ∃ d : Dec Z, (d.request = (if id % 2 = 1 ∧ t = 1 then st else dec.request) ∧
      d.response = (if id % 2 = 1 ∧ t = 1 then dec.response else st)) ∧ headerPayload z mem ⟨true, (mem.getD 1 0).toNat, t, mem.getD 4 0, p.length⟩ s =
      .ok { s with read := 8 + (if t = 1 then 10 else 6), dec := d, info := { s.info with streamId := id, headers := hs.foldl (fun a e => insertHeader a e.1 e.2) s.info.headers } } := by
    intro s hs8 hsd
    unfold headerPayload
    rw [u32At_eq]
    simp only [hs8, hsd, if_pos (by omega : 8 + 4 ≤ mem.length), bind, Except.bind, mask31, hstream, hmod]
    have hk : (if t = 1 then 10 else 6) = 4 + between.length := by
      split <;> omega
    rw [hk]
    have hn : sub32 p.length (4 + between.length) = block.length := by unfold sub32; omega
    rw [hn, if_neg (by omega : ¬ mem.length < 8 + (4 + between.length) + block.length)]
    have hdrop : (mem.drop (8 + (4 + between.length))).take block.length = block := by
      have : (be32 id ++ between).length = 4 + between.length := by simp [l32]
      rw [← List.drop_drop, hdrop8, ← hpay, List.append_assoc, ← this, List.drop_left, List.take_left]
    rw [hdrop]
    have hsel : (if id % 2 ≠ 0 ∧ t = 1 then dec.request else dec.response) = (if id % 2 = 1 ∧ t = 1 then dec.request else dec.response) := by
      have : id % 2 ≠ 0 ↔ id % 2 = 1 := by omega
      simp only [this]
    have hout : (headerBlock hs).take maxHeader = headerBlock hs := List.take_of_length_le hb
    have hd : ∃ d, decompress z dec block id t = (d, true) ∧ (d.request = (if id % 2 = 1 ∧ t = 1 then st else dec.request) ∧
        d.response = (if id % 2 = 1 ∧ t = 1 then dec.response else st)) ∧
        d.buf = (headerBlock hs).map some ++ dec.buf.drop (headerBlock hs).length := by
      unfold decompress
      simp only [hsel, hz, hout]
      by_cases hu : id % 2 ≠ 0 ∧ t = 1
      · have hu' : id % 2 = 1 ∧ t = 1 := ⟨by omega, hu.2⟩
        rw [if_pos hu, if_pos hu', if_pos hu']; exact ⟨_, rfl, ⟨rfl, rfl⟩, rfl⟩
      · have hu' : ¬(id % 2 = 1 ∧ t = 1) := fun g => hu ⟨by omega, g.2⟩
        rw [if_neg hu, if_neg hu', if_neg hu']; exact ⟨_, rfl, ⟨rfl, rfl⟩, rfl⟩
    obtain ⟨d, hd, hst, hbuf⟩ := hd
    refine ⟨d, hst, ?_⟩
    rw [hd]
    simp only [readHeaders, bind, Except.bind, pure, Except.pure]
    have hblock : d.buf = (be16 hs.length).map some ++ ((hs.flatMap pairOf).map some ++ dec.buf.drop (headerBlock hs).length) := by
      rw [hbuf, headerBlock, List.map_append, List.append_assoc]; rfl
    have hcount : hu16 d.buf 0 = .ok hs.length := by
      have := hu16_at (pre := []) (post := (hs.flatMap pairOf).map some ++ dec.buf.drop (headerBlock hs).length) (i := 0) hc rfl
      rw [hblock]; simpa using this
    rw [hcount]
    simp only
    have hpairs : pairs d.buf 2 s.info.headers hs.length = .ok (hs.foldl (fun a e => insertHeader a e.1 e.2) s.info.headers) := by
      rw [hblock, ← List.append_assoc]
      exact pairs_at hs hh rfl
    rw [hpairs]
  rw [htype, hsize]
  rcases htt with rfl | rfl | rfl
  · simp only [payload]
    generalize hs' : ({ atPayload mem length info.streamId info.lastChunk info dec with info := { (atPayload mem length info.streamId info.lastChunk info dec).info with httpType := 1 } } : S Z) = s'
    obtain ⟨d, hst, hd⟩ := hread s' (by rw [← hs']; simp only [atPayload]) (by rw [← hs']; simp only [atPayload])
    rw [hd]
    subst hs'
    refine ⟨_, rfl, ?_⟩
    simpa [leave, atPayload, hsize] using hst
  · simp only [payload]
    generalize hs' : ({ atPayload mem length info.streamId info.lastChunk info dec with info := { (atPayload mem length info.streamId info.lastChunk info dec).info with httpType := 2 } } : S Z) = s'
    obtain ⟨d, hst, hd⟩ := hread s' (by rw [← hs']; simp only [atPayload]) (by rw [← hs']; simp only [atPayload])
    rw [hd]
    subst hs'
    refine ⟨_, rfl, ?_⟩
    simpa [leave, atPayload, hsize] using hst
  · simp only [payload]
    obtain ⟨d, hst, hd⟩ := hread (atPayload mem length info.streamId info.lastChunk info dec) (by simp only [atPayload]) (by simp only [atPayload])
    rw [hd]
    refine ⟨_, rfl, ?_⟩
    simpa [leave, atPayload, hsize] using hst

/-- If zlib fails on the block of headers of a frame, the frame is refused with the decompression error. -/
theorem headers_refused {v fl : UInt8} {t id : Nat} {between block rest out : Bytes} {st : Z}
    (hv : v.toNat ≤ 3) (ht : t = 1 ∧ between.length = 6 ∨ (t = 2 ∨ t = 8) ∧ between.length = 2)
    (h0 : 0 < id) (hid : id < 2 ^ 31) (hp : (be32 id ++ between ++ block).length < 2 ^ 24)
    (hz : z (if id % 2 = 1 ∧ t = 1 then dec.request else dec.response) block = (st, out, false)) :
    ∃ o, parse z (controlFrame v t fl (be32 id ++ between ++ block) ++ rest) length info dec data = .ok o ∧
      o.result = some false ∧ o.error = some .decompression ∧ o.info.headers = info.headers := by
  have l32 : (be32 id).length = 4 := rfl
  generalize hpay : be32 id ++ between ++ block = p at *
  generalize hmem : controlFrame v t fl p ++ rest = mem
  have hcons := controlFrame_cons v t fl p rest
  rw [hmem] at hcons
  have hplen : p.length = 4 + between.length + block.length := by
    rw [← hpay]; simp [l32]; omega
  have hlen : mem.length = 8 + p.length + rest.length := by rw [hcons]; simp; omega
  have hb0 : mem.getD 0 0 = 0x80 := by rw [hcons]; rfl
  have hb1 : mem.getD 1 0 = v := by rw [hcons]; rfl
  have htt : t = 1 ∨ t = 2 ∨ t = 8 := by omega
  have htype : typeOf mem = t := by
    rw [hcons]
    simp only [typeOf, stored, List.drop_succ_cons, List.drop_zero, List.take_succ_cons, List.take_zero, List.map, beNat, List.foldl, ofNat_toBitVec]
    omega
  have hsize : payloadSize mem = p.length := by rw [hcons, size_of hp]
  have hdrop8 : mem.drop 8 = p ++ rest := by rw [hcons]; rfl
  have hstream : stored mem 8 4 = id := by
    rw [stored, hdrop8, ← hpay]
    simp only [be32, be16, List.cons_append, List.nil_append, List.append_assoc, List.take_succ_cons, List.take_zero, List.map, beNat, List.foldl, ofNat_toBitVec]
    omega
  have hmod : id % 2 ^ 31 = id := Nat.mod_eq_of_lt hid
  rw [parse_control hb0 (by omega) (by omega) (by rw [hstream]; omega) (by rw [hb1]; exact hv)]
  have hread : ∀ s : S Z, s.read = 8 → s.dec = dec → ∃ d : Dec Z, headerPayload z mem ⟨true, (mem.getD 1 0).toNat, t, mem.getD 4 0, p.length⟩ s =
      .ok { s with read := 8 + (if t = 1 then 10 else 6), dec := d, error := some .decompression, info := { s.info with streamId := id } } := by
    intro s hs8 hsd
    unfold headerPayload
    rw [u32At_eq]
    simp only [hs8, hsd, if_pos (by omega : 8 + 4 ≤ mem.length), bind, Except.bind, mask31, hstream, hmod]
    have hk : (if t = 1 then 10 else 6) = 4 + between.length := by
      split <;> omega
    rw [hk]
    have hn : sub32 p.length (4 + between.length) = block.length := by unfold sub32; omega
    rw [hn, if_neg (by omega : ¬ mem.length < 8 + (4 + between.length) + block.length)]
    have hdrop : (mem.drop (8 + (4 + between.length))).take block.length = block := by
      have : (be32 id ++ between).length = 4 + between.length := by simp [l32]
      rw [← List.drop_drop, hdrop8, ← hpay, List.append_assoc, ← this, List.drop_left, List.take_left]
    rw [hdrop]
    have hsel : (if id % 2 ≠ 0 ∧ t = 1 then dec.request else dec.response) = (if id % 2 = 1 ∧ t = 1 then dec.request else dec.response) := by
      have : id % 2 ≠ 0 ↔ id % 2 = 1 := by omega
      simp only [this]
    have hd : ∃ d, decompress z dec block id t = (d, false) := by
      unfold decompress
      simp only [hsel, hz]
      by_cases hu : id % 2 ≠ 0 ∧ t = 1
      · rw [if_pos hu]; exact ⟨_, rfl⟩
      · rw [if_neg hu]; exact ⟨_, rfl⟩
    obtain ⟨d, hd⟩ := hd
    refine ⟨d, ?_⟩
    rw [hd]
    simp only [readHeaders]
  rw [htype, hsize]
  rcases htt with rfl | rfl | rfl
  · simp only [payload]
    generalize hs' : ({ atPayload mem length info.streamId info.lastChunk info dec with info := { (atPayload mem length info.streamId info.lastChunk info dec).info with httpType := 1 } } : S Z) = s'
    obtain ⟨d, hd⟩ := hread s' (by rw [← hs']; simp only [atPayload]) (by rw [← hs']; simp only [atPayload])
    rw [hd]
    subst hs'
    refine ⟨_, rfl, ?_⟩
    simp [leave, atPayload]
  · simp only [payload]
    generalize hs' : ({ atPayload mem length info.streamId info.lastChunk info dec with info := { (atPayload mem length info.streamId info.lastChunk info dec).info with httpType := 2 } } : S Z) = s'
    obtain ⟨d, hd⟩ := hread s' (by rw [← hs']; simp only [atPayload]) (by rw [← hs']; simp only [atPayload])
    rw [hd]
    subst hs'
    refine ⟨_, rfl, ?_⟩
    simp [leave, atPayload]
  · simp only [payload]
    obtain ⟨d, hd⟩ := hread (atPayload mem length info.streamId info.lastChunk info dec) (by simp only [atPayload]) (by simp only [atPayload])
    rw [hd]
    refine ⟨_, rfl, ?_⟩
    simp [leave, atPayload]

example : (fun (_ : Unit) (_ : Bytes) => ((), ([] : Bytes), false)) (if 1 % 2 = 1 ∧ 1 = 1 then () else ()) [0x41] = ((), [], false) ∧
    (parse (fun _ _ => ((), [], false)) (controlFrame 2 1 0 (be32 1 ++ [0, 0, 0, 0, 0, 0] ++ [0x41])) 19 {} ⟨(), (), []⟩ none).map
      (fun o => (o.result, o.error)) = .ok (some false, some .decompression) := by decide +kernel

/-- Headers with different names are reported as they were written. -/
theorem distinct_headers (hs : List (Bytes × Bytes)) (hd : (hs.map Prod.fst).Nodup) : firsts hs = hs := by
  induction hs with
  | nil => rfl
  | cons e hs ih =>
    rw [List.map_cons, List.nodup_cons] at hd
    rw [firsts, ih hd.2, List.filter_eq_self.2]
    intro x hx
    simp only [ne_eq, decide_not, Bool.not_eq_true', decide_eq_false_iff_not]
    exact fun he => hd.1 (he ▸ List.mem_map_of_mem hx)

example : (parse copy (synStream ++ dataFrame 1 1 []) (synStream.length + 8) {} ⟨(), (), []⟩ none).map
    (fun o => (o.result, o.info)) =
      .ok (none, { headers := [(b! "method", b! "GET")], httpType := 1, streamId := 1, dataOffset := 8, dataSize := 25 }) := by
  decide +kernel

/-- A SYN_STREAM whose block of headers announces one header more than it has. -/
def tooMany : Bytes :=
  controlFrame 2 1 0 (be32 3 ++ be32 0 ++ [0, 0] ++ (be16 2 ++ pairOf (b! "a", b! "b")))

/-- What the buffer holds after another SYN_STREAM. -/
def before : Bytes := be16 1 ++ pairOf (b! "x", [0] ++ pairOf (b! "cookie", b! "secret"))

/-- Nothing is compared with the length of the decompressed block: a block that announces a header too many makes the
    parser read what the buffer holds after the block. With a new decompressor that memory was never written. After
    another block, longer than this one, it is what is left of that, here the end of the headers of another stream. -/
theorem count_not_checked :
    (parse copy tooMany tooMany.length {} ⟨(), (), List.replicate 100 none⟩ none).map (fun o => o.info) = .error .uninitialised ∧
    (parse copy tooMany tooMany.length {} ⟨(), (), before.map some⟩ none).map (fun o => (o.result, o.info.headers)) =
      .ok (some true, [(b! "a", b! "b"), (b! "cookie", b! "secret")]) := by
  decide +kernel

/-- The block of a frame of version 3, whose numbers have four bytes, is read as one of version 2: no headers are found. -/
theorem version3_unread :
    (parse copy (controlFrame 3 1 0 (be32 1 ++ be32 0 ++ [0, 0] ++ (be32 1 ++ be32 1 ++ b! "a" ++ be32 1 ++ b! "b"))) 32 {}
      ⟨(), (), []⟩ none).map (fun o => (o.result, o.info.headers)) = .ok (some true, []) := by
  decide +kernel

end Verif.Props.Spdy
