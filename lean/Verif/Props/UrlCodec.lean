import Verif.Model.UrlCodec
import Verif.Spec.Url
/-
C04, C05, C06: URL encoding and decoding.
-/
namespace Verif.Props.UrlCodec
open Verif Verif.UrlCodec

theorem urlDecode_cons (c : UInt8) (rest : Bytes) (h1 : c ≠ c! "+") (h2 : c ≠ c! "%") :
    urlDecode (c :: rest) = c :: urlDecode rest := by
  rw [urlDecode.eq_def]; simp [h1, h2]

theorem urlDecode_plus (rest : Bytes) : urlDecode (c! "+" :: rest) = c! " " :: urlDecode rest := by
  rw [urlDecode.eq_def]; simp

theorem urlDecode_pct (a b : UInt8) (rest : Bytes) : urlDecode (c! "%" :: a :: b :: rest) =
    if charOfLong (strtol16 [a, b]) = 0 then c! "%" :: urlDecode (a :: b :: rest)
    else charOfLong (strtol16 [a, b]) :: urlDecode rest := by
  rw [urlDecode.eq_def]; simp

theorem encByte_cases (c : UInt8) : (encByte c = [c] ∧ c ≠ c! "+" ∧ c ≠ c! "%") ∨
    encByte c = [c! "%", hexUp (c >>> 4), hexUp (c &&& (0x0f : UInt8))] := by
  revert c; decide +kernel

theorem hexUp_dec (c : UInt8) : charOfLong (strtol16 [hexUp (c >>> 4), hexUp (c &&& (0x0f : UInt8))]) = c := by
  revert c; decide +kernel

/-- Decoding one encoded byte. -/
theorem decode_encByte (c : UInt8) (t : Bytes) :
    urlDecode (encByte c ++ t) = (if c = 0 then b! "%00" else [c]) ++ urlDecode t := by
  rcases encByte_cases c with ⟨h, h1, h2⟩ | h
  · rw [h]
    have h0 : c ≠ 0 := by
      intro e; subst e; revert h; decide
    simp [urlDecode_cons _ _ h1 h2, h0]
  · rw [h]
    simp only [List.cons_append, List.nil_append]
    rw [urlDecode_pct]
    simp only [hexUp_dec]
    by_cases h0 : c = 0
    · subst h0
      have e1 : hexUp ((0 : UInt8) >>> 4) = c! "0" := by decide
      have e2 : hexUp ((0 : UInt8) &&& (0x0f : UInt8)) = c! "0" := by decide
      rw [e1, e2, urlDecode_cons _ _ (by decide) (by decide), urlDecode_cons _ _ (by decide) (by decide)]
      simp
    · simp [h0]

/-- C04, exact behaviour of decoding an encoded string: every byte comes back, except that NUL bytes
    come back as the three characters "%00". -/
theorem url_decode_encode_exact (s : Bytes) :
    urlDecode (urlEncode s) = s.flatMap (fun c => if c = 0 then b! "%00" else [c]) := by
  induction s with
  | nil => simp [urlEncode, urlDecode]
  | cons c s ih =>
    have : urlEncode (c :: s) = encByte c ++ urlEncode s := by simp [urlEncode]
    rw [this, decode_encByte, ih, List.flatMap_cons]

theorem length_flatMap_nul (s : Bytes) :
    (s.flatMap (fun c => if c = 0 then b! "%00" else [c])).length = s.length + 2 * s.count 0 := by
  induction s with
  | nil => simp
  | cons c s ih =>
    rw [List.flatMap_cons, List.length_append, ih, List.length_cons, List.count_cons]
    by_cases h : c = 0
    · simp [h]; omega
    · simp [h]; omega

/-- C04: the round trip holds exactly for the strings without NUL byte. -/
theorem url_roundtrip_iff (s : Bytes) : urlDecode (urlEncode s) = s ↔ 0 ∉ s := by
  rw [url_decode_encode_exact]
  constructor
  · intro h hm
    have := length_flatMap_nul s
    rw [h] at this
    have hc : 0 < s.count 0 := List.count_pos_iff.mpr hm
    omega
  · intro h
    induction s with
    | nil => rfl
    | cons c s ih =>
      simp only [List.mem_cons, not_or] at h
      rw [List.flatMap_cons, ih h.2, if_neg (fun e => h.1 e.symm)]; rfl

/-- C04: round trip for NUL-free strings (all other 255 byte values). -/
theorem url_roundtrip_partial (s : Bytes) (h : 0 ∉ s) : urlDecode (urlEncode s) = s :=
  (url_roundtrip_iff s).mpr h

/-- C04, violated for strings with a NUL byte. -/
theorem url_roundtrip_fails_on_nul : urlDecode (urlEncode [0x61, 0x00]) = b! "a%00" := by decide +kernel

example : urlDecode (urlEncode [0xff, 0x25, 0x2b, 0x20, 0x41]) = [0xff, 0x25, 0x2b, 0x20, 0x41] :=
  url_roundtrip_partial _ (by decide)

theorem encByte_ne (c : UInt8) : encByte c ≠ [] := by
  rcases encByte_cases c with ⟨h, _⟩ | h <;> simp [h]

/-- C04: encoding is injective on all byte strings (also with NUL bytes). -/
theorem url_encode_injective (s t : Bytes) (h : urlEncode s = urlEncode t) : s = t := by
  have inj : ∀ c : UInt8, (encByte c).head? = some (c! "%") ∨ (encByte c = [c] ∧ c ≠ c! "%") := by
    decide +kernel
  have trip : ∀ c : UInt8, (encByte c).head? = some (c! "%") →
      encByte c = [c! "%", hexUp (c >>> 4), hexUp (c &&& (0x0f : UInt8))] := by decide +kernel
  induction s generalizing t with
  | nil =>
    cases t with
    | nil => rfl
    | cons d t =>
      exfalso
      have : urlEncode (d :: t) = encByte d ++ urlEncode t := by simp [urlEncode]
      rw [this] at h
      have hne := encByte_ne d
      have : (encByte d ++ urlEncode t) = [] := by rw [← h]; rfl
      exact hne (List.append_eq_nil_iff.mp this).1
  | cons c s ih =>
    cases t with
    | nil =>
      exfalso
      have : urlEncode (c :: s) = encByte c ++ urlEncode s := by simp [urlEncode]
      rw [this] at h
      have hne := encByte_ne c
      exact hne (List.append_eq_nil_iff.mp (h.trans rfl)).1
    | cons d t =>
      have e1 : urlEncode (c :: s) = encByte c ++ urlEncode s := by simp [urlEncode]
      have e2 : urlEncode (d :: t) = encByte d ++ urlEncode t := by simp [urlEncode]
      rw [e1, e2] at h
      have key : c = d ∧ urlEncode s = urlEncode t := by
        rcases inj c with hc | ⟨hc, hc'⟩ <;> rcases inj d with hd | ⟨hd, hd'⟩
        · rw [trip c hc, trip d hd] at h
          simp only [List.cons_append, List.nil_append, List.cons.injEq, true_and] at h
          refine ⟨?_, h.2.2⟩
          rw [← hexUp_dec c, ← hexUp_dec d, h.1, h.2.1]
        · rw [trip c hc, hd] at h
          simp at h
          exact absurd h.1.symm hd'
        · rw [hc, trip d hd] at h
          simp at h
          exact absurd h.1 hc'
        · rw [hc, hd] at h
          simpa using h
      rw [key.1, ih t key.2]

theorem clean_cons (c : UInt8) (r : Bytes) (h : c ≠ c! "%") : Verif.Spec.Url.clean (c :: r) =
    (33 ≤ c.toNat && c.toNat ≤ 126 && !Verif.Spec.Url.delimiters.contains c && Verif.Spec.Url.clean r) := by
  rw [Verif.Spec.Url.clean.eq_def]; simp [h]

/-- C05: encoded text is clean: printable ASCII without delimiters, '%' only in %XX triples. -/
theorem url_encode_clean (s : Bytes) : Verif.Spec.Url.clean (urlEncode s) = true := by
  have key : ∀ c : UInt8, Verif.Spec.Url.clean (encByte c) = true := by decide +kernel
  have step : ∀ c : UInt8, ∀ t, Verif.Spec.Url.clean (encByte c ++ t) = Verif.Spec.Url.clean t := by
    intro c t
    have hk := key c
    rcases encByte_cases c with ⟨h, _, h2⟩ | h
    · rw [h] at hk ⊢
      rw [clean_cons _ _ h2] at hk
      rw [List.cons_append, List.nil_append, clean_cons _ _ h2, ((Bool.and_eq_true _ _).mp hk).1, Bool.true_and]
    · rw [h] at hk ⊢
      simp only [Verif.Spec.Url.clean, if_true, Bool.and_true, Bool.and_eq_true] at hk
      simp only [List.cons_append, List.nil_append, Verif.Spec.Url.clean, if_true]
      rw [hk.1, hk.2]; rfl
  induction s with
  | nil => rfl
  | cons c s ih =>
    have : urlEncode (c :: s) = encByte c ++ urlEncode s := by simp [urlEncode]
    rw [this, step, ih]

example : urlEncode (b! "a b&c=\"<") = b! "a%20b%26c%3D%22%3C" := by decide +kernel

/-- C05: in particular no delimiter, control character or byte >= 0x7f occurs in encoded text. -/
theorem url_encode_no_delimiters (s : Bytes) : ∀ c ∈ urlEncode s,
    c ∉ Verif.Spec.Url.delimiters ∧ 33 ≤ c.toNat ∧ c.toNat ≤ 126 := by
  have key : ∀ c : UInt8, (encByte c).all (fun d =>
      !Verif.Spec.Url.delimiters.contains d && decide (33 ≤ d.toNat) && decide (d.toNat ≤ 126)) = true := by
    decide +kernel
  intro c hc
  obtain ⟨d, _, hd⟩ := List.mem_flatMap.mp hc
  have := List.all_eq_true.mp (key d) c hd
  simp only [Bool.and_eq_true, decide_eq_true_eq, Bool.not_eq_true'] at this
  exact ⟨by simpa using this.1.1, this.1.2, this.2⟩

/-- C06: decoding never lengthens the text. -/
theorem url_decode_length_le (s : Bytes) : (urlDecode s).length ≤ s.length := by
  induction s using urlDecode.induct with
  | case1 => simp [urlDecode]
  | case2 rest ih => rw [urlDecode_plus]; simpa using ih
  | case3 h1 h2 rest d hd _ ih => rw [urlDecode_pct, if_pos hd]; simpa using ih
  | case4 h1 h2 rest d hd _ ih => rw [urlDecode_pct, if_neg hd]; simp; omega
  | case5 h1 _ ih => rw [urlDecode.eq_def]; simpa using ih
  | case6 _ => simp [urlDecode]
  | case7 c rest h1 h2 ih => rw [urlDecode_cons _ _ h1 h2]; simpa using ih

/-- C06: text without '%' and '+' is unchanged. -/
theorem url_decode_plain (s : Bytes) (h : ∀ c ∈ s, c ≠ c! "%" ∧ c ≠ c! "+") : urlDecode s = s := by
  induction s with
  | nil => rfl
  | cons c s ih =>
    have hc := h c (by simp)
    rw [urlDecode_cons _ _ hc.2 hc.1, ih (fun d hd => h d (by simp [hd]))]

example : urlDecode (b! "/index.html") = b! "/index.html" :=
  url_decode_plain _ (by decide +kernel)

/-- C06: '+' becomes a space, wherever it occurs outside an escape. -/
theorem url_decode_plus (t : Bytes) : urlDecode (c! "+" :: t) = c! " " :: urlDecode t := by
  exact urlDecode_plus t

/-- C06: a valid escape other than %00 is replaced by the byte it denotes. -/
theorem url_decode_escape (h1 h2 : UInt8) (v1 v2 : Nat) (t : Bytes)
    (e1 : Verif.Spec.Url.hexValue h1 = some v1) (e2 : Verif.Spec.Url.hexValue h2 = some v2)
    (hv : 16 * v1 + v2 ≠ 0) :
    urlDecode (c! "%" :: h1 :: h2 :: t) = UInt8.ofNat (16 * v1 + v2) :: urlDecode t := by
  have key1 : ∀ c : UInt8, Verif.Spec.Url.hexValue c = hexVal? c := by decide +kernel
  have kv : ∀ c : UInt8, ∀ v ∈ hexVal? c, v < 16 := by
    intro c v; revert c v
    have : ∀ c : UInt8, ((hexVal? c).all (· < 16)) = true := by decide +kernel
    intro c v h
    have h' := this c
    rw [Option.mem_def.mp h] at h'
    simpa using h'
  have kns : ∀ c : UInt8, (hexVal? c).isSome → isSpaceC c = false ∧ c ≠ c! "-" ∧ c ≠ c! "+" := by
    decide +kernel
  rw [key1] at e1 e2
  have l1 := kv h1 v1 e1
  have l2 := kv h2 v2 e2
  obtain ⟨n1, n2, n3⟩ := kns h1 (by simp [e1])
  have hs : strtol16 [h1, h2] = ((16 * v1 + v2 : Nat) : Int) := by
    have n1' : ¬ isSpaceC h1 = true := by simp [n1]
    simp only [strtol16, List.dropWhile, n1, if_neg n2, if_neg n3, skip0x, hexDigits, e1, e2]
    have : 16 * (16 * 0 + v1) + v2 ≤ LONG_MAX := by simp only [LONG_MAX]; omega
    rw [Nat.min_eq_left this]; simp
  have hc : charOfLong (strtol16 [h1, h2]) = UInt8.ofNat (16 * v1 + v2) := by
    rw [hs, charOfLong]
    congr 1
    have : ((16 * v1 + v2 : Nat) : Int) % 256 = ((16 * v1 + v2 : Nat) : Int) := by omega
    rw [this]; rfl
  have hne : UInt8.ofNat (16 * v1 + v2) ≠ 0 := by
    intro h
    have := congrArg UInt8.toNat h
    simp at this
    omega
  rw [urlDecode_pct, hc, if_neg hne]

example : urlDecode (b! "%2fx") = b! "/x" := by
  exact url_decode_escape (c! "2") (c! "f") 2 15 (b! "x") (by decide) (by decide) (by decide)

/-- C06: no escape sequence produces a NUL byte; a NUL in the result was a NUL in the input. -/
theorem url_decode_no_new_nul (s : Bytes) (h : 0 ∈ urlDecode s) : 0 ∈ s := by
  induction s using urlDecode.induct with
  | case1 => simp [urlDecode] at h
  | case2 rest ih =>
    rw [urlDecode_plus] at h
    rcases List.mem_cons.mp h with h | h
    · exact absurd h (by decide)
    · exact List.mem_cons_of_mem _ (ih h)
  | case3 h1 h2 rest d hd _ ih =>
    rw [urlDecode_pct, if_pos hd] at h
    rcases List.mem_cons.mp h with h | h
    · exact absurd h (by decide)
    · exact List.mem_cons_of_mem _ (ih h)
  | case4 h1 h2 rest d hd _ ih =>
    rw [urlDecode_pct, if_neg hd] at h
    rcases List.mem_cons.mp h with h | h
    · exact absurd h.symm hd
    · exact List.mem_cons_of_mem _ (List.mem_cons_of_mem _ (List.mem_cons_of_mem _ (ih h)))
  | case5 h1 _ ih =>
    rw [urlDecode.eq_def] at h
    simp only [List.mem_cons, if_neg (show ¬ (c! "%" = c! "+") by decide), if_true] at h
    rcases h with h | h
    · exact absurd h (by decide)
    · exact List.mem_cons_of_mem _ (ih h)
  | case6 _ => simp [urlDecode] at h
  | case7 c rest h1 h2 ih =>
    rw [urlDecode_cons _ _ h1 h2] at h
    rcases List.mem_cons.mp h with h | h
    · exact h ▸ List.mem_cons_self
    · exact List.mem_cons_of_mem _ (ih h)

/-- C06: an escape cut off by the end of the text is left alone. -/
theorem url_decode_truncated (t : Bytes) (h : t.length < 2) :
    urlDecode (c! "%" :: t) = c! "%" :: urlDecode t := by
  match t, h with
  | [], _ => simp [urlDecode]
  | [a], _ => simp [urlDecode]

/-- C06: every other character stands for itself, wherever it is. -/
theorem url_decode_other (c : UInt8) (t : Bytes) (h1 : c ≠ c! "%") (h2 : c ≠ c! "+") :
    urlDecode (c :: t) = c :: urlDecode t := by
  rw [urlDecode.eq_def]; dsimp only; rw [if_neg h2, if_neg h1]

/-- C06: of the escape of NUL the percent sign is kept, and decoding goes on after it. -/
theorem url_decode_nul (t : Bytes) : urlDecode (b! "%00" ++ t) = b! "%00" ++ urlDecode t := by
  have h : urlDecode (c! "%" :: c! "0" :: c! "0" :: t) = c! "%" :: urlDecode (c! "0" :: c! "0" :: t) := by
    rw [urlDecode_pct, if_pos (by decide +kernel)]
  show urlDecode (c! "%" :: c! "0" :: c! "0" :: t) = c! "%" :: c! "0" :: c! "0" :: urlDecode t
  rw [h, url_decode_other _ _ (by decide) (by decide), url_decode_other _ _ (by decide) (by decide)]

example : urlDecode (b! "%00%41+") = b! "%00A " := by decide +kernel

/-- C06, a deviation: malformed escapes are not always left alone, because `strtol` accepts signs, white
    space and stops at the first bad digit. "%1g", "%+5", "% 7" and "%-1" all decode to one byte. -/
theorem url_decode_lenient :
    urlDecode (b! "%1g") = [0x01] ∧ urlDecode (b! "%+5") = [0x05] ∧
    urlDecode (b! "% 7") = [0x07] ∧ urlDecode (b! "%-1") = [0xff] := by decide +kernel

end Verif.Props.UrlCodec
