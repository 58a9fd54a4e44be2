import Verif.Lemmas.DataUrl
import Verif.Spec.Multipart
/-
C81: binary fields of a form can be recovered from their text.
-/
namespace Verif.Props.DataUrl
open Verif.DataUrl Verif.Spec.DataUrl Verif.Spec.Base64

/-! ### The alphabet -/

/-- The six bits of a character. -/
def code (c : UInt8) : UInt8 := UInt8.ofNat ((value? c).getD 0)

theorem code_lt : ∀ c, (code c).toNat < 64 := by decide +kernel

theorem code_bits : ∀ c : UInt8, (value? c).getD 0 = (code c).toNat := by decide +kernel

theorem fromBase64_eq (pad : Bool) : ∀ c, fromBase64 pad c =
    if (value? c).isSome || (pad && c == c! "=") then some (code c) else none := by
  cases pad <;> decide +kernel

theorem readable_iff (pad : Bool) (c : UInt8) :
    Readable pad c ↔ ((value? c).isSome || (pad && c == c! "=")) = true := by
  simp [Readable]

theorem enc_code : ∀ k : UInt8, k.toNat < 64 → code (Base64.enc k) = k ∧ (value? (Base64.enc k)).isSome ∧
    Base64.enc k ≠ c! "=" := by
  have : ∀ n : Fin 64, code (Base64.enc (UInt8.ofNat n)) = UInt8.ofNat n ∧ (value? (Base64.enc (UInt8.ofNat n))).isSome ∧
    Base64.enc (UInt8.ofNat n) ≠ c! "=" := by decide +kernel
  intro k hk
  have := this ⟨k.toNat, hk⟩
  simpa using this

theorem bytes_eq (d : Bytes) : bytes d = bytesOf (d.map code) := by
  rw [← bytesOf_spec _ (by simp [code_lt]), List.flatMap_map]
  unfold bytes
  congr 1
  simp only [code_bits]

theorem codes_lt (x : Bytes) : ∀ k ∈ codes x, k.toNat < 64 := by
  induction x using codes.induct with
  | case1 => simp [codes]
  | case2 a =>
    simp only [codes, List.forall_mem_cons]
    exact ⟨Base64.q0 a, Base64.q1' a, nofun⟩
  | case3 a b =>
    simp only [codes, List.forall_mem_cons]
    exact ⟨Base64.q0 a, Base64.q1 a b, Base64.q2' b, nofun⟩
  | case4 a b c r ih =>
    simp only [codes, List.forall_mem_cons]
    exact ⟨Base64.q0 a, Base64.q1 a b, Base64.q2 b c, Base64.q3 c, ih⟩

theorem bytesOf_codes (x : Bytes) : bytesOf (codes x) = x := by
  induction x using codes.induct with
  | case1 => rfl
  | case2 a => simp only [codes, bytesOf, Base64.r0']
  | case3 a b => simp only [codes, bytesOf, Base64.r0, Base64.r1']
  | case4 a b c r ih => simp only [codes, bytesOf, Base64.r0, Base64.r1, Base64.r2, ih]

theorem codes_length (x : Bytes) : (codes x).length % 4 ≠ 1 ∧ (codes x).length * 6 / 8 = x.length := by
  induction x using codes.induct with
  | case1 => simp [codes]
  | case2 => simp [codes]
  | case3 => simp [codes]
  | case4 a b c r ih => simp only [codes, List.length_cons]; omega

/-! ### The parts of a text -/

/-- The text with the type `t`, the characters `d` and the padding `p`. -/
def url (t d p : Bytes) : Bytes := b! "data:" ++ t ++ b! "; base64, " ++ d ++ p

theorem url_length (t d p : Bytes) : (url t d p).length = 15 + t.length + d.length + p.length := by
  simp [url]; omega

theorem find_url (t d p : Bytes) (ht : TypeOk t) : findSub (b! "; base64, ") (url t d p) = some (5 + t.length) := by
  apply Multipart.findSub_of
  · rw [url_length]; omega
  · have : url t d p = (b! "data:" ++ t) ++ (b! "; base64, " ++ (d ++ p)) := by simp [url]
    rw [this, List.drop_left' (by simp; omega)]
    exact List.prefix_append _ _
  · intro i hi hp
    by_cases h5 : i < 5
    · have : i = 0 ∨ i = 1 ∨ i = 2 ∨ i = 3 ∨ i = 4 := by omega
      unfold url at hp
      rcases this with rfl | rfl | rfl | rfl | rfl <;>
        (simp only [List.append_assoc, List.drop, List.cons_append, List.nil_append, List.cons_prefix_cons] at hp
         exact absurd hp.1 (by decide))
    · obtain ⟨k, rfl⟩ : ∃ k, i = 5 + k := ⟨i - 5, by omega⟩
      have h1 : (url t d p).drop (5 + k) = ((t ++ b! "; base64, ") ++ (d ++ p)).drop k := by
        have : url t d p = b! "data:" ++ ((t ++ b! "; base64, ") ++ (d ++ p)) := by simp [url]
        rw [this, ← List.drop_drop]; rfl
      rw [h1, List.drop_append_of_le_length (by simp; omega)] at hp
      have hp2 : b! "; base64, " <+: (t ++ b! "; base64, ").drop k := by
        exact List.prefix_of_prefix_length_le hp (List.prefix_append _ _) (by simp; omega)
      obtain ⟨b, hb⟩ := hp2
      have := ht ((t ++ b! "; base64, ").take k) b (by
        rw [List.append_assoc, hb, List.take_append_drop])
      rw [this, List.append_nil] at hb
      have := congrArg List.length hb
      simp at this
      omega

theorem trimmed_append {a d p : Bytes} (hl : a.getLast? ≠ some (c! "=")) (hp : Padding d p) :
    trimmed (a ++ d ++ p) = a.length + d.length := by
  have hl' : d.getLast? ≠ some (c! "=") → (a ++ d).getLast? ≠ some (c! "=") := by
    intro h
    rw [List.getLast?_append]
    cases hd : d.getLast? with
    | none => simpa using hl
    | some x => rw [hd] at h; simpa using h
  cases hp with
  | none h =>
    rw [List.append_nil, trimmed, if_neg (hl' h), List.length_append]
  | one h =>
    rw [trimmed, if_pos (by simp), if_neg (by rw [List.dropLast_concat]; exact hl' h)]
    simp
  | two =>
    have : a ++ d ++ b! "==" = (a ++ d ++ b! "=") ++ b! "=" := by simp
    rw [this, trimmed, if_pos (by simp), if_pos (by rw [List.dropLast_concat]; simp)]
    simp; omega

theorem trimmed_url (t d p : Bytes) (hp : Padding d p) : trimmed (url t d p) = 15 + t.length + d.length := by
  unfold url
  rw [trimmed_append (a := b! "data:" ++ t ++ b! "; base64, ") (by rw [List.getLast?_append]; nofun) hp]
  simp; omega

theorem padding_length {d p : Bytes} (hp : Padding d p) : p.length ≤ 2 := by cases hp <;> simp

/-! ### Reading the characters -/

theorem read_inside (pad : Bool) (a d p : Bytes) (i : Nat) (hi : i < d.length) :
    readText pad (a ++ d ++ p) (a.length + i) =
      if (value? d[i]).isSome || (pad && d[i] == c! "=") then .ok (code d[i]) else .error .throws := by
  have : (a ++ d ++ p).getD (a.length + i) 0 = d[i] := by
    rw [List.getD_eq_getElem?_getD, List.append_assoc, List.getElem?_append_right (by omega), Nat.add_sub_cancel_left,
      List.getElem?_append_left hi, List.getElem?_eq_getElem hi]
    rfl
  unfold readText
  rw [if_pos (by simp; omega), this, fromBase64_eq]
  split
  · rename_i v hv
    split at hv
    · cases hv; simp [*]
    · exact nomatch hv
  · rename_i hv
    split at hv
    · exact nomatch hv
    · simp [*]

theorem read_total (pad : Bool) (text : Bytes) (i : Nat) (hi : i ≤ text.length) :
    (∃ k, readText pad text i = .ok k ∧ k.toNat < 64) ∨ readText pad text i = .error .throws := by
  unfold readText
  rw [if_pos hi, fromBase64_eq]
  split
  · rename_i v hv
    split at hv
    · cases hv; exact .inl ⟨_, rfl, code_lt _⟩
    · exact nomatch hv
  · exact .inr rfl

theorem read_end (pad : Bool) (text : Bytes) : readText pad text text.length = .error .throws := by
  unfold readText
  rw [if_pos (Nat.le_refl _)]
  have : text.getD text.length 0 = 0 := by simp
  rw [this]
  cases pad <;> rfl

theorem copy_decodable (pad : Bool) (a d p : Bytes) (h : Decodable pad d) (fuel : Nat) (hf : d.length < fuel) :
    copy (readText pad (a ++ d ++ p)) 6 8 (a.length + d.length) fuel { pos := a.length } [] = .done (bytes d) := by
  rw [bytes_eq, ← List.nil_append (bytesOf _)]
  refine copy_decode _ _ (d.map code) _ _ _ _ ?_ ?_ ?_ ?_ ?_
  · intro i hi
    have hi' : i < d.length := by simpa using hi
    rw [read_inside pad a d p i hi', if_pos ((readable_iff _ _).mp (h.1 _ (List.getElem_mem hi')))]
    simp
  · simp [code_lt]
  · simpa using h.2
  · simp
  · simpa using hf

theorem copy_undecodable (pad : Bool) (a d p : Bytes) (h : ¬ Decodable pad d) (fuel : Nat)
    (hf : d.length + p.length < fuel) :
    ∃ w, copy (readText pad (a ++ d ++ p)) 6 8 (a.length + d.length) fuel { pos := a.length } [] = .stopped .throws w ∧
      w.length ≤ d.length + p.length := by
  have hex : ∃ u, readText pad (a ++ d ++ p) (a.length + u) = .error .throws :=
    ⟨d.length + p.length, by
      have := read_end pad (a ++ d ++ p)
      rw [show (a ++ d ++ p).length = a.length + (d.length + p.length) from by simp] at this
      exact this⟩
  classical
  have hle : Nat.find hex ≤ d.length + p.length := Nat.find_le (by
    have := read_end pad (a ++ d ++ p)
    rw [show (a ++ d ++ p).length = a.length + (d.length + p.length) from by simp] at this
    exact this)
  obtain ⟨w, h1, h2⟩ := copy_throws (readText pad (a ++ d ++ p)) (a.length + d.length) (Nat.find hex) a.length [] fuel 0
    (fun i hi => by
      rcases read_total pad (a ++ d ++ p) (a.length + i) (by simp; omega) with h1 | h1
      · exact h1
      · exact absurd h1 (Nat.find_min hex hi))
    (Nat.find_spec hex)
    (fun q hq h4 e => h ⟨fun c hc => by
        obtain ⟨i, hi, rfl⟩ := List.mem_iff_getElem.mp hc
        have hmin := Nat.find_min hex (m := i) (by omega)
        rw [read_inside pad a d p i hi] at hmin
        rw [readable_iff]
        by_contra hno
        rw [if_neg hno] at hmin
        exact hmin rfl, by
        have : q = d.length := by omega
        rw [← this]; exact h4⟩)
    (by omega)
  exact ⟨w, h1, by simpa using Nat.le_trans h2 (by simpa using hle)⟩

/-! ### The theorems -/

/-- **C81, the text.** `binary_2base64` gives the text of the data: it reads no byte outside the buffer, and ends. -/
theorem encoded (data type : Bytes) : binary2base64 data type = some (text data type) := by
  have h := copy_encode data [] [] (2 * data.length + 2) 0 (Nat.le_refl _)
  simp only [List.nil_append, List.length_nil] at h
  unfold binary2base64
  rw [h]
  simp only [text, ← Base64.encode_eq_spec, encode_codes, padding]
  rfl

/-- The text that the model of forms (C54) stores for a binary part is the one the iterators produce. -/
theorem encoded_as_form (data type : Bytes) : binary2base64 data type = some (Multipart.binary2base64 data type) :=
  encoded data type

theorem unfold_url (pad : Bool) (bufSize : Nat) (null : Bool) (t d p : Bytes) (ht : TypeOk t) (hp : Padding d p) :
    base642binary pad bufSize null (url t d p) =
      if bufSize < 15 + t.length + d.length ∨ null then .ret false (d.length * 6 / 8 + 1) (some t) []
      else match copy (readText pad (url t d p)) 6 8 (15 + t.length + d.length) ((url t d p).length + 2)
          { pos := 15 + t.length } [] with
        | .diverged => .diverged
        | .stopped why out => if bufSize < out.length then .oobWrite else if why = .oob then .oobRead else .throws
        | .done out => if bufSize < out.length + 1 then .oobWrite else .ret true (d.length * 6 / 8 + 1) (some t) (out ++ [0]) := by
  unfold base642binary
  rw [if_neg (by simp [url]), find_url t d p ht]
  have htype : ((url t d p).drop 5).take t.length = t := by
    have : url t d p = b! "data:" ++ (t ++ (b! "; base64, " ++ (d ++ p))) := by simp [url]
    rw [this]
    exact List.take_left' rfl
  simp only [htype, trimmed_url t d p hp, show 15 + t.length + d.length ≠ 0 from by omega, if_false,
    show 5 + t.length + 10 = 15 + t.length from by omega, Nat.add_sub_cancel_left]
  rfl

/-- **C81, decoding.** Characters that can be read are decoded, if the buffer is as long as the text; the buffer gets the
    bytes and a NUL, and the size and the type are reported. -/
theorem decoded (pad : Bool) (bufSize : Nat) (t d p : Bytes) (ht : TypeOk t) (hp : Padding d p) (hd : Decodable pad d)
    (hb : 15 + t.length + d.length ≤ bufSize) :
    base642binary pad bufSize false (url t d p) = .ret true ((bytes d).length + 1) (some t) (bytes d ++ [0]) := by
  have hlen : (bytes d).length = d.length * 6 / 8 := by
    rw [bytes_eq, bytesOf_length _ (by simpa using hd.2)]; simp
  rw [unfold_url pad bufSize false t d p ht hp, if_neg (by simp; omega)]
  have h := copy_decodable pad (b! "data:" ++ t ++ b! "; base64, ") d p hd ((url t d p).length + 2) (by rw [url_length]; omega)
  rw [show (b! "data:" ++ t ++ b! "; base64, ").length = 15 + t.length from by simp; omega] at h
  have h : copy (readText pad (url t d p)) 6 8 (15 + t.length + d.length) ((url t d p).length + 2)
    { pos := 15 + t.length } [] = .done (bytes d) := h
  rw [h]
  simp only
  rw [if_neg (by omega), hlen]

/-- **C81, other characters**: an exception. -/
theorem undecodable (pad : Bool) (bufSize : Nat) (t d p : Bytes) (ht : TypeOk t) (hp : Padding d p) (hd : ¬ Decodable pad d)
    (hb : 15 + t.length + d.length ≤ bufSize) : base642binary pad bufSize false (url t d p) = .throws := by
  rw [unfold_url pad bufSize false t d p ht hp, if_neg (by simp; omega)]
  obtain ⟨w, h, hw⟩ := copy_undecodable pad (b! "data:" ++ t ++ b! "; base64, ") d p hd ((url t d p).length + 2)
    (by rw [url_length]; omega)
  rw [show (b! "data:" ++ t ++ b! "; base64, ").length = 15 + t.length from by simp; omega] at h
  have h : copy (readText pad (url t d p)) 6 8 (15 + t.length + d.length) ((url t d p).length + 2)
    { pos := 15 + t.length } [] = .stopped .throws w := h
  rw [h]
  have := padding_length hp
  simp only
  rw [if_neg (by omega), if_neg (by decide)]

/-- **C81, small buffers**: nothing is written, and the size that the bytes and the NUL need is reported. -/
theorem refused (pad : Bool) (bufSize : Nat) (null : Bool) (t d p : Bytes) (ht : TypeOk t) (hp : Padding d p)
    (hb : bufSize < 15 + t.length + d.length ∨ null = true) :
    base642binary pad bufSize null (url t d p) = .ret false (d.length * 6 / 8 + 1) (some t) [] := by
  rw [unfold_url pad bufSize null t d p ht hp, if_pos hb]

theorem split_padding (r : Bytes) : ∃ d p, r = d ++ p ∧ Padding d p := by
  by_cases h1 : r.getLast? = some (c! "=")
  · obtain ⟨r1, rfl⟩ := List.getLast?_eq_some_iff.mp h1
    by_cases h2 : r1.getLast? = some (c! "=")
    · obtain ⟨r2, rfl⟩ := List.getLast?_eq_some_iff.mp h2
      exact ⟨r2, _, by simp, .two⟩
    · exact ⟨r1, _, rfl, .one h2⟩
  · exact ⟨r, [], by simp, .none h1⟩

/-- Every text with both marks is read as a text with a type, characters and padding. -/
theorem url_of_find (text : Bytes) (h5 : text.take 5 = b! "data:") (pos : Nat) (hf : findSub (b! "; base64, ") text = some pos) :
    ∃ t d p, text = url t d p ∧ TypeOk t ∧ Padding d p := by
  obtain ⟨_, ⟨r, hr⟩, hmin⟩ := Multipart.findSub_some hf
  have hsplit : text = b! "data:" ++ text.drop 5 := by rw [← h5, List.take_append_drop]
  have hpos : 5 ≤ pos := by
    by_contra hlt
    have : pos = 0 ∨ pos = 1 ∨ pos = 2 ∨ pos = 3 ∨ pos = 4 := by omega
    rw [hsplit] at hr
    rcases this with rfl | rfl | rfl | rfl | rfl <;> simp at hr
  obtain ⟨k, rfl⟩ : ∃ k, pos = 5 + k := ⟨pos - 5, by omega⟩
  obtain ⟨d, p, rfl, hp⟩ := split_padding r
  generalize hx : text.drop 5 = x at hsplit
  have hdrop : ∀ j, text.drop (5 + j) = x.drop j := by intro j; rw [← List.drop_drop, hx]
  rw [hdrop] at hr
  have hk : k ≤ x.length := by
    by_contra hlt
    rw [List.drop_eq_nil_of_le (by omega)] at hr
    simp at hr
  have hx2 : x = x.take k ++ (b! "; base64, " ++ (d ++ p)) := by rw [hr, List.take_append_drop]
  refine ⟨x.take k, d, p, ?_, ?_, hp⟩
  · rw [hsplit]
    conv_lhs => rw [hx2]
    simp [url]
  · intro a b e
    by_contra hb
    have hlen := congrArg List.length e
    have hbl := List.length_pos_iff.2 hb
    simp only [List.length_append, List.length_take, Nat.min_eq_left hk] at hlen
    refine hmin (5 + a.length) (by simp at hlen; omega) ?_
    rw [hdrop]
    have : x = a ++ (b! "; base64, " ++ (b ++ (d ++ p))) := by
      rw [hx2, ← List.append_assoc, e]; simp
    rw [this, List.drop_left' rfl]
    exact List.prefix_append _ _

/-- **C81, other texts** are refused. -/
theorem no_data_url (pad : Bool) (bufSize : Nat) (null : Bool) (text : Bytes)
    (h : ∀ t r, text ≠ b! "data:" ++ t ++ b! "; base64, " ++ r) : base642binary pad bufSize null text = .ret false 0 none [] := by
  unfold base642binary
  by_cases h5 : text.take 5 = b! "data:"
  · rw [if_neg (by simp [h5])]
    cases hf : findSub (b! "; base64, ") text with
    | none => rfl
    | some pos =>
      obtain ⟨t, d, p, e, _, _⟩ := url_of_find text h5 pos hf
      exact absurd (by rw [e]; simp [url]) (h t (d ++ p))
  · rw [if_pos h5]

/-- **C81, safety.** Whatever the text and the buffer, no byte outside the text is read and none outside the buffer is written:
    a value is returned, or an exception thrown. -/
theorem safe (pad : Bool) (bufSize : Nat) (null : Bool) (text : Bytes) :
    base642binary pad bufSize null text = .throws ∨
    ∃ ok n t w, base642binary pad bufSize null text = .ret ok n t w ∧ w.length ≤ bufSize ∧ (null = true → w = []) := by
  by_cases h : text.take 5 = b! "data:" ∧ ∃ pos, findSub (b! "; base64, ") text = some pos
  · obtain ⟨h5, pos, hf⟩ := h
    obtain ⟨t, d, p, rfl, ht, hp⟩ := url_of_find text h5 pos hf
    by_cases hb : bufSize < 15 + t.length + d.length ∨ null = true
    · exact .inr ⟨_, _, _, _, refused pad bufSize null t d p ht hp hb, by simp, fun _ => rfl⟩
    · have hn : null = false := by cases null <;> simp_all
      subst hn
      have hb : 15 + t.length + d.length ≤ bufSize := by
        by_contra hlt; exact hb (.inl (by omega))
      by_cases hd : Decodable pad d
      · refine .inr ⟨_, _, _, _, decoded pad bufSize t d p ht hp hd hb, ?_, nofun⟩
        have hlen : (bytes d).length = d.length * 6 / 8 := by
          rw [bytes_eq, bytesOf_length _ (by simpa using hd.2)]; simp
        simp only [List.length_append, List.length_cons, List.length_nil]
        omega
      · exact .inl (undecodable pad bufSize t d p ht hp hd hb)
  · refine .inr ⟨false, 0, none, [], ?_, by simp, fun _ => rfl⟩
    unfold base642binary
    by_cases h5 : text.take 5 = b! "data:"
    · rw [if_neg (by simp [h5])]
      cases hf : findSub (b! "; base64, ") text with
      | none => rfl
      | some pos => exact absurd ⟨h5, pos, hf⟩ h
    · rw [if_pos h5]

/-! ### There and back -/

theorem text_url (data type : Bytes) : ∃ d p, text data type = url type d p ∧ Padding d p ∧ (∀ pad, Decodable pad d) ∧
    bytes d = data ∧ d.length * 6 / 8 = data.length := by
  have hv : ∀ c ∈ (codes data).map Base64.enc, (value? c).isSome ∧ c ≠ c! "=" := by
    intro c hc
    obtain ⟨k, hk, rfl⟩ := List.mem_map.mp hc
    exact (enc_code k (codes_lt data k hk)).2
  have hl : ((codes data).map Base64.enc).getLast? ≠ some (c! "=") := by
    intro h
    exact (hv _ (List.mem_of_getLast? h)).2 rfl
  refine ⟨(codes data).map Base64.enc, padding data.length, ?_, ?_, ?_, ?_, ?_⟩
  · rw [text, ← Base64.encode_eq_spec, encode_codes, url]
    simp only [List.append_assoc]
  · unfold padding
    split
    · exact .none hl
    · exact .two
    · exact .one hl
  · exact fun pad => ⟨fun c hc => .inl (hv c hc).1, by simpa using (codes_length data).1⟩
  · rw [bytes_eq, List.map_map]
    have : (codes data).map (code ∘ Base64.enc) = codes data := by
      conv_rhs => rw [← List.map_id (codes data)]
      exact List.map_congr_left fun k hk => (enc_code k (codes_lt data k hk)).1
    rw [this, bytesOf_codes]
  · simpa using (codes_length data).2

/-- **C81, there and back.** The text of some data gives back the data, if the buffer is as long as the text: exactly these bytes
    and a NUL, their number, and the type. -/
theorem round_trip (pad : Bool) (data type : Bytes) (ht : TypeOk type) (bufSize : Nat)
    (hb : (text data type).length ≤ bufSize) :
    (binary2base64 data type).map (base642binary pad bufSize false) =
      some (.ret true (data.length + 1) (some type) (data ++ [0])) := by
  obtain ⟨d, p, e, hp, hd, hbytes, _⟩ := text_url data type
  rw [encoded, Option.map_some, e, decoded pad bufSize type d p ht hp (hd pad) (by rw [e, url_length] at hb; omega), hbytes]

/-- **C81 for forms.** The value that is stored for a binary part of a form (C54) gives back the data of the part. -/
theorem field_recovered (pad : Bool) (p : Spec.Multipart.Part) (hbin : Spec.Multipart.isText p.headers = false)
    (ht : TypeOk (Spec.Multipart.typeOf p.headers)) (bufSize : Nat) (hb : p.value.length ≤ bufSize) :
    base642binary pad bufSize false p.value =
      .ret true (p.data.length + 1) (some (Spec.Multipart.typeOf p.headers)) (p.data ++ [0]) := by
  have hv : p.value = text p.data (Spec.Multipart.typeOf p.headers) := by
    unfold Spec.Multipart.Part.value
    rw [hbin]; rfl
  have := round_trip pad p.data _ ht bufSize (by rw [← hv]; exact hb)
  rw [encoded, Option.map_some, ← hv] at this
  exact Option.some.inj this

/-- **Finding.** A buffer that is too small is refused, and the size of the data and the NUL is reported as the required size
    (parser.hpp:344); but a buffer of that size is refused again, whatever the data, since the length of the whole text is
    required (http_parser.cpp:1051). -/
theorem asked_size_refused (pad : Bool) (data type : Bytes) (ht : TypeOk type) :
    base642binary pad (data.length + 1) false (text data type) = .ret false (data.length + 1) (some type) [] := by
  obtain ⟨d, p, e, hp, _, _, hlen⟩ := text_url data type
  rw [e, refused pad _ false type d p ht hp (.inl (by omega)), hlen]

/-! ### Texts -/

theorem typeOk_of (t : Bytes) (h : c! ";" ∉ t) : TypeOk t := by
  intro a b e
  by_cases hk : t.length ≤ a.length
  · have := congrArg List.length e
    simp only [List.length_append] at this
    exact List.eq_nil_of_length_eq_zero (by omega)
  · exfalso
    have h1 : t[a.length]'(by omega) = c! ";" := by
      have e1 : (t ++ b! "; base64, ")[a.length]? = some (t[a.length]'(by omega)) := by
        rw [List.getElem?_append_left (by omega), List.getElem?_eq_getElem]
      rw [e, List.append_assoc, List.getElem?_append_right (Nat.le_refl _), Nat.sub_self] at e1
      exact (Option.some.inj e1).symm
    exact h (h1 ▸ List.getElem_mem _)

/-- The types of real parts will do. -/
example : TypeOk (b! "application/octet-stream") := typeOk_of _ (by decide)

example : binary2base64 [0x00, 0xff, 0x10, 0x80] (b! "image/png") = some (b! "data:image/png; base64, AP8QgA==") := by
  decide +kernel
example : base642binary true 64 false (b! "data:image/png; base64, AP8QgA==") =
    .ret true 5 (some (b! "image/png")) [0x00, 0xff, 0x10, 0x80, 0x00] := by decide +kernel
example : base642binary true 4 false (b! "data:image/png; base64, AP8QgA==") = .ret false 5 (some (b! "image/png")) [] := by
  decide +kernel
example : base642binary true 64 false (b! "data:image/png; base64, AP8Qg") = .throws := by decide +kernel
example : ¬ Decodable true (b! "AP8*") := fun h => by
  have := h.1 (c! "*") (by decide)
  rw [readable_iff] at this
  revert this; decide +kernel

/-- **Finding.** The form that RFC 2397 gives such texts, without blanks, is refused. -/
theorem rfc2397_refused : base642binary true 64 false (b! "data:image/png;base64,AP8QgA==") = .ret false 0 none [] := by
  decide +kernel

/-- **Finding.** A type with the mark in it, which a client can send, runs into the data. -/
theorem type_runs_into_data : (binary2base64 (b! "abc") (b! "a; base64, AAAA")).map (base642binary true 64 false) =
    some .throws := by decide +kernel

end Verif.Props.DataUrl
