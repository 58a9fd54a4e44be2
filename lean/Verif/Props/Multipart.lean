import Verif.Lemmas.Multipart
import Mathlib.Data.List.Induction
/-
C54: multipart/form-data bodies.
-/
namespace Verif.Props.Multipart
open Verif Verif.Multipart Verif.Spec.Multipart

theorem dispositionName_eq (pre n post : Bytes) (hq : c! "\"" ∉ n)
    (hp : ∀ i < pre.length, ¬ (b! "name=\"") <+: (pre ++ b! "name=\"" ++ n ++ c! "\"" :: post).drop i) :
    dispositionName (pre ++ b! "name=\"" ++ n ++ c! "\"" :: post) = n := by
  have hf : findSub (b! "name=\"") (pre ++ b! "name=\"" ++ n ++ c! "\"" :: post) = some pre.length := by
    apply findSub_of
    · simp only [List.length_append]; omega
    · rw [List.append_assoc, List.append_assoc, List.drop_left' rfl]
      exact List.prefix_append _ _
    · exact hp
  unfold dispositionName
  rw [hf]
  dsimp only
  have e : (pre ++ b! "name=\"" ++ n ++ c! "\"" :: post).drop (pre.length + 6) = n ++ c! "\"" :: post := by
    rw [List.append_assoc]
    exact List.drop_left' (by simp)
  rw [e, List.takeWhile_append_of_pos]
  · simp
  · intro c hc
    simp only [decide_eq_true_eq]
    rintro rfl
    exact hq hc

theorem fold_name_other (hs : List (Bytes × Bytes)) (n : Bytes)
    (h : ∀ x ∈ hs, sameName x.1 (b! "Content-Disposition") = false) : hs.foldl lineName n = n := by
  induction hs generalizing n with
  | nil => rfl
  | cons x hs ih =>
    rw [List.foldl_cons]
    have h1 : lineName n x = n := by
      unfold lineName
      rw [show iequals x.1 (b! "Content-Disposition") = false from h x List.mem_cons_self]
      simp
    rw [h1]
    exact ih n (fun y hy => h y (List.mem_cons_of_mem _ hy))

theorem fold_name (hs : List (Bytes × Bytes)) (n : Bytes) (h : Named hs n) : hs.foldl lineName [] = n := by
  obtain ⟨before, after, key, pre, post, rfl, hk, ho, hp, hq⟩ := h
  rw [List.foldl_append, List.foldl_cons,
    fold_name_other before [] (fun x hx => ho x (List.mem_append_left _ hx)),
    fold_name_other after _ (fun x hx => ho x (List.mem_append_right _ hx))]
  unfold lineName
  have hct : iequals key (b! "Content-Type") = false := by
    rw [Bool.eq_false_iff]
    intro hc
    have h1 : key.map toUpper = (b! "Content-Type").map toUpper := by simpa [iequals] using hc
    have h2 : key.map toUpper = (b! "Content-Disposition").map toUpper := by
      have : iequals key (b! "Content-Disposition") = true := hk
      simpa [iequals] using this
    rw [h1] at h2
    revert h2
    decide +kernel
  rw [hct, show iequals key (b! "Content-Disposition") = true from hk]
  simp only [Bool.false_eq_true, if_false, if_true, List.nil_append]
  exact dispositionName_eq pre n post hq hp

theorem typeOf_snoc (hs : List (Bytes × Bytes)) (x : Bytes × Bytes) :
    typeOf (hs ++ [x]) = lineType (typeOf hs) x := by
  unfold typeOf lineType
  rw [List.filter_append, List.map_append]
  change _ = if sameName x.1 (b! "Content-Type") = true then _ else _
  cases h : sameName x.1 (b! "Content-Type") <;> simp [h]

theorem fold_type (hs : List (Bytes × Bytes)) : hs.foldl lineType [] = typeOf hs := by
  induction hs using List.reverseRecOn with
  | nil => rfl
  | append_singleton hs x ih => rw [List.foldl_append, ih, typeOf_snoc]; rfl

theorem fold_mime (hs : List (Bytes × Bytes)) (h : ∀ x ∈ hs, HeaderOk x) :
    hs.foldl lineMime false = !isText hs := by
  induction hs using List.reverseRecOn with
  | nil => rfl
  | append_singleton hs x ih =>
    rw [List.foldl_append, ih (fun y hy => h y (List.mem_append_left _ hy))]
    have hx := (h x (by simp)).valueNe
    unfold isText
    rw [typeOf_snoc]
    simp only [List.foldl_cons, List.foldl_nil]
    unfold lineMime lineType
    cases hc : iequals x.1 (b! "Content-Type") with
    | false => simp
    | true =>
      simp only [if_true]
      have : (x.2 == []) = false := by simpa using hx
      rw [this, Bool.false_or]
      rfl

theorem added_eq (p : Part) (h : ∀ x ∈ p.headers, HeaderOk x) (n : Bytes) (hn : Named p.headers n) :
    added p = if n = [] then [] else [(n, p.value)] := by
  unfold added Part.value
  dsimp only
  rw [fold_name _ n hn, fold_mime _ h, fold_type]
  split
  · rfl
  · cases isText p.headers <;> rfl

theorem added_unnamed (p : Part) (h : ∀ x ∈ p.headers, sameName x.1 (b! "Content-Disposition") = false) :
    added p = [] := by
  unfold added
  rw [fold_name_other _ _ h]
  rfl

/-- A part of a well-formed body: readable header lines, data in which the delimiter does not occur, and either one
    Content-Disposition header that gives a name or none. -/
structure PartOk (delim : Bytes) (p : Part) (name : Option Bytes) : Prop where
  headersOk : ∀ h ∈ p.headers, HeaderOk h
  dataOk : ¬ delim <:+: p.data
  nameOk : match name with
    | some n => n ≠ [] ∧ Named p.headers n
    | none => ∀ x ∈ p.headers, sameName x.1 (b! "Content-Disposition") = false

/-- **C54.** The fields of a well-formed multipart/form-data body are returned in order; text fields verbatim, other
    fields as base64 text; parts without a name are skipped. `lead` is text before the first delimiter line,
    `trail` is anything after the closing delimiter. -/
theorem multipart_fields_exact (dict : Dict) (ctype boundary lead trail : Bytes) (ps : List (Part × Option Bytes))
    (hb : 0x0d ∉ boundary ∧ 0x0a ∉ boundary)
    (hfirst : ∀ i < ctype.length, ¬ (b! "boundary=") <+: (ctype ++ b! "boundary=" ++ boundary).drop i)
    (hlead : lead = [] ∨ ∃ l, lead = l ++ crlf ∧ ¬ (b! "--" ++ boundary) <:+: l)
    (hps : ∀ p ∈ ps, PartOk (b! "--" ++ boundary) p.1 p.2) :
    parseMultipart dict (ctype ++ b! "boundary=" ++ boundary) (body boundary lead (ps.map (·.1)) trail) =
      .ret true (dict ++ ps.flatMap fun p => match p.2 with | some n => [(n, p.1.value)] | none => []) := by
  have hcr : (0x0d : UInt8) ∉ b! "--" ++ boundary := by simp [hb.1]
  have hlf : (0x0a : UInt8) ∉ b! "--" ++ boundary := by simp [hb.2]
  have hne : b! "--" ++ boundary ≠ [] := by simp
  have hbound : findSub (b! "boundary=") (ctype ++ b! "boundary=" ++ boundary) = some ctype.length := by
    apply findSub_of
    · simp only [List.length_append]; omega
    · rw [List.append_assoc, List.drop_left' rfl]
      exact List.prefix_append _ _
    · exact hfirst
  have hdrop : (ctype ++ b! "boundary=" ++ boundary).drop (ctype.length + 9) = boundary :=
    List.drop_left' (by simp)
  generalize hB : body boundary lead (ps.map (·.1)) trail = B
  have hBe : B.isEmpty = false := by
    rw [← hB]
    cases hh : body boundary lead (ps.map (·.1)) trail with
    | nil => simp [body] at hh
    | cons _ _ => rfl
  unfold parseMultipart
  rw [hBe, if_neg (by simp), hbound]
  dsimp only
  rw [hdrop]
  generalize hd : b! "--" ++ boundary = delim at *
  -- the first delimiter
  obtain ⟨rest, hrest⟩ : ∃ rest, (ps.map (·.1)).flatMap (Part.text delim) ++ (delim ++ (b! "--" ++ trail)) =
      delim ++ rest := by
    cases ps with
    | nil => exact ⟨b! "--" ++ trail, by simp⟩
    | cons q r =>
      refine ⟨crlf ++ (q.1.headers.flatMap headerLine ++ (crlf ++ (q.1.data ++ (crlf ++
        ((r.map (·.1)).flatMap (Part.text delim) ++ (delim ++ (b! "--" ++ trail))))))), ?_⟩
      rw [List.map_cons, List.flatMap_cons, Part.text]; simp only [List.append_assoc]
  have hBody : B = lead ++ ((ps.map (·.1)).flatMap (Part.text delim) ++ (delim ++ (b! "--" ++ trail))) := by
    rw [← hB, body, hd]; simp only [List.append_assoc]
  have hsearch : search B delim 0 = lead.length := by
    rw [hBody, hrest]
    rcases hlead with rfl | ⟨l, rfl, hl⟩
    · unfold search
      rw [List.drop_zero, List.nil_append, findSub_of 0 (Nat.zero_le _) (List.prefix_append _ _) (fun i hi => absurd hi (Nat.not_lt_zero _))]
      rfl
    · rw [search_data (u := l) (rest := rest) hl hcr hlf hne (by simp)]
      simp [crlf]
  have hdropB : B.drop lead.length = (ps.map (·.1)).flatMap (Part.text delim) ++ (delim ++ (b! "--" ++ trail)) := by
    rw [hBody]; exact List.drop_left' rfl
  rw [hsearch]
  obtain ⟨s', f', hs', k, hk⟩ := go_parts (bd := delim) (ps.map (·.1))
    (fun p hp => by
      obtain ⟨q, hq, rfl⟩ := List.mem_map.1 hp
      exact ⟨(hps q hq).headersOk, (hps q hq).dataOk⟩) hcr hlf hne dict false { dict := dict } ⟨rfl, rfl, rfl⟩
    lead.length _ hdropB
  have hclose : ∀ fuel, loop B delim (fuel + 2) s' _ = .ret true _ :=
    loop_close _ f' s' hs' hne _ _ (drop_add_of_drop hdropB)
  have hrun : loop B delim (2 + k) { dict := dict } lead.length =
      .ret true (dict ++ (ps.map (·.1)).flatMap added) := by
    rw [hk 2]; exact hclose 0
  have hadd : (ps.map (·.1)).flatMap added =
      ps.flatMap fun p => match p.2 with | some n => [(n, p.1.value)] | none => [] := by
    suffices key : ∀ p ∈ ps, added p.1 = (match p.2 with | some n => [(n, p.1.value)] | none => []) by
      rw [List.flatMap_map]
      unfold List.flatMap
      rw [List.map_congr_left key]
    intro p hp
    have hpp := hps p hp
    have hn := hpp.nameOk
    cases hp2 : p.2 with
    | none => rw [hp2] at hn; exact added_unnamed p.1 hn
    | some n =>
      rw [hp2] at hn
      rw [added_eq p.1 hpp.headersOk n hn.2, if_neg hn.1]
  rw [← hadd]
  -- any two sufficient amounts of fuel agree
  have h1 := loop_fuel_mono (body := B) (bd := delim) (2 + k) (2 * B.length + 2) { dict := dict } lead.length
    (by rw [hrun]; simp)
  have h2 := loop_fuel_mono (body := B) (bd := delim) (2 * B.length + 2) (2 + k) { dict := dict } lead.length
    (loop_start_total _ rfl _)
  rw [← h2, Nat.add_comm, h1, hrun]

/-- Two fields, one of them not text, and a part without a name. -/
def sampleParts : List (Part × Option Bytes) :=
  [(⟨[(b! "Content-Disposition", b! "form-data; name=\"a\"")], b! "one\r\ntwo"⟩, some (b! "a")),
   (⟨[(b! "X-Other", b! "y")], b! "skipped"⟩, none),
   (⟨[(b! "content-disposition", b! "form-data; name=\"f\"; filename=\"x.bin\""),
      (b! "Content-Type", b! "image/png")], [0x01, 0x02, 0x03]⟩, some (b! "f"))]

def sampleType : Bytes := b! "multipart/form-data; "

/-- The hypotheses of `multipart_fields_exact` are met. -/
theorem sample_ok : ∀ p ∈ sampleParts, PartOk (b! "--" ++ b! "XyZ") p.1 p.2 := by
  intro p hp
  simp only [sampleParts, List.mem_cons, List.not_mem_nil, or_false] at hp
  rcases hp with rfl | rfl | rfl
  · refine ⟨?_, by decide +kernel, ⟨by decide, ⟨⟨[], [], _, b! "form-data; ", [], rfl, by decide +kernel, by decide +kernel,
      by decide +kernel, by decide +kernel⟩⟩⟩⟩
    intro h hh
    simp only [List.mem_cons, List.not_mem_nil, or_false] at hh
    subst hh
    exact ⟨by decide, by decide +kernel, by decide +kernel, by decide, by decide⟩
  · refine ⟨?_, by decide +kernel, by decide +kernel⟩
    intro h hh
    simp only [List.mem_cons, List.not_mem_nil, or_false] at hh
    subst hh
    exact ⟨by decide, by decide +kernel, by decide +kernel, by decide, by decide⟩
  · refine ⟨?_, by decide +kernel, ⟨by decide, ⟨⟨[], [(b! "Content-Type", b! "image/png")], _, b! "form-data; ",
      b! "; filename=\"x.bin\"", rfl, by decide +kernel, by decide +kernel, by decide +kernel, by decide +kernel⟩⟩⟩⟩
    intro h hh
    simp only [List.mem_cons, List.not_mem_nil, or_false] at hh
    rcases hh with rfl | rfl <;> exact ⟨by decide, by decide +kernel, by decide +kernel, by decide, by decide⟩
example : ∀ i < sampleType.length, ¬ (b! "boundary=") <+: (sampleType ++ b! "boundary=" ++ b! "XyZ").drop i := by
  decide +kernel
example : parseMultipart [] (sampleType ++ b! "boundary=" ++ b! "XyZ")
    (body (b! "XyZ") (b! "preamble\r\n") (sampleParts.map (·.1)) []) =
    .ret true [(b! "a", b! "one\r\ntwo"), (b! "f", b! "data:image/png; base64, AQID")] := by decide +kernel

/-! ### Arbitrary bodies -/

theorem step_safe {body bd : Bytes} (s : St) (p : Nat) (c : UInt8) (hc : body[p]? = some c) (hb : Behind body s p) :
    step body bd s p c ≠ .outOfBounds ∧
    (step body bd s p c = .negativeLength → ∃ q, [0x0a, 0x0d, 0x0a] ++ bd <+: body.drop q) := by
  have hp : p < body.length := by
    rw [List.getElem?_eq_some_iff] at hc; exact hc.1
  have hse := search_ge body bd p (Nat.le_of_lt hp)
  unfold step
  cases hst : s.st
  case fieldData =>
    obtain ⟨h3, h1, h2⟩ := hb.2.2.2 hst
    simp only
    rw [if_neg (by omega)]
    constructor
    · repeat' split
      all_goals simp
    · intro h
      have hlt : (if body[search body bd p - 2]? == some 0x0d && body[search body bd p - 1]? == some 0x0a then
          search body bd p - 2 else search body bd p) < p := by
        by_contra hh
        rw [if_neg hh] at h
        cases h
      split at hlt
      · rename_i hcc
        simp only [Bool.and_eq_true, beq_iff_eq] at hcc
        have hnext : search body bd p = p := by
          rcases Nat.lt_or_ge p (search body bd p) with hg | hg
          · have : search body bd p = p + 1 := by omega
            rw [this, show p + 1 - 2 = p - 1 by omega, h1] at hcc
            exact absurd hcc.1 (by decide)
          · omega
        rw [hnext] at hcc
        have h2' : body[p - 3]? = some 0x0a := by
          rcases h2 with h2 | h2
          · rw [h2] at hcc; exact absurd hcc.1 (by decide)
          · exact h2.2
        have hpre : bd <+: body.drop p := by
          unfold search at hnext
          split at hnext
          · rename_i k hf
            have : k = 0 := by omega
            subst this
            simpa using (findSub_some hf).2.1
          · omega
        refine ⟨p - 3, ?_⟩
        have e : ∀ i, i < body.length → body.drop i = (body[i]?.getD 0) :: body.drop (i + 1) := by
          intro i hi
          rw [List.drop_eq_getElem_cons hi, List.getElem?_eq_getElem hi]; rfl
        rw [e (p - 3) (by omega), e (p - 3 + 1) (by omega), e (p - 3 + 1 + 1) (by omega)]
        rw [show p - 3 + 1 + 1 = p - 1 by omega, show p - 3 + 1 = p - 2 by omega, h2', hcc.1, h1,
          show p - 1 + 1 = p by omega]
        simpa using hpre
      · omega
  all_goals
    constructor
    · simp only
      repeat' split
      all_goals simp
    · intro h
      simp only at h
      exfalso
      revert h
      repeat' split
      all_goals simp

theorem loop_safe {body bd : Bytes} (hbd : 2 ≤ bd.length) (fuel : Nat) (s : St) (p : Nat) (hb : Behind body s p) :
    loop body bd fuel s p ≠ .outOfBounds ∧
    (loop body bd fuel s p = .negativeLength → ∃ q, [0x0a, 0x0d, 0x0a] ++ bd <+: body.drop q) := by
  induction fuel generalizing s p with
  | zero => exact ⟨by simp [loop], by simp [loop]⟩
  | succ fuel ih =>
    unfold loop
    cases hc : body[p]? with
    | none => exact ⟨by simp, by simp⟩
    | some c =>
      dsimp only
      have hs := step_safe (bd := bd) s p c hc hb
      cases h : step body bd s p c with
      | next s' p' => exact ih s' p' (step_behind hbd s p c s' p' hc hb h)
      | ret ok => exact ⟨by simp, by simp⟩
      | negativeLength => exact ⟨by simp, fun _ => hs.2 h⟩
      | outOfBounds => exact absurd h hs.1

/-- **C54 (safety, except for one shape of body).** For every content type and body the parser stops, reads no byte
    outside the body, and computes no negative length, unless the boundary comes directly after the blank line that
    ends the headers of a part. -/
theorem multipart_safe_partial (dict : Dict) (ctype body : Bytes) :
    parseMultipart dict ctype body ≠ .diverged ∧ parseMultipart dict ctype body ≠ .outOfBounds ∧
    ((∀ i, findSub (b! "boundary=") ctype = some i →
        ¬ ([0x0a, 0x0d, 0x0a] ++ (b! "--" ++ ctype.drop (i + 9))) <:+: body) →
      parseMultipart dict ctype body ≠ .negativeLength) := by
  unfold parseMultipart
  split
  · exact ⟨by simp, by simp, by simp⟩
  · split
    · exact ⟨by simp, by simp, by simp⟩
    · rename_i pos hpos
      have hb : Behind body { dict := dict } (search body (b! "--" ++ ctype.drop (pos + 9)) 0) := by
        refine ⟨fun h => absurd rfl h, ?_, ?_, ?_⟩ <;> intro h <;> cases h
      have hs := loop_safe (body := body) (bd := b! "--" ++ ctype.drop (pos + 9)) (by simp) (2 * body.length + 2) _ _ hb
      refine ⟨loop_start_total _ rfl _, hs.1, fun hh hn => ?_⟩
      obtain ⟨q, hq⟩ := hs.2 hn
      exact hh pos hpos (hq.isInfix.trans (List.drop_suffix q body).isInfix)

example : findSub (b! "boundary=") (b! "multipart/form-data; boundary=B") = some 21 := by decide +kernel

/-- **C54 fails for an empty part without the line break in front of the boundary**: the computed length is negative,
    so that `std::string::assign` throws an exception. -/
theorem multipart_negative_length :
    parseMultipart [] (b! "multipart/form-data; boundary=B")
      (b! "--B\r\nContent-Disposition: form-data; name=\"a\"\r\n\r\n--B--") = .negativeLength := by decide +kernel

/-- The name is looked for anywhere in the header: a `filename` parameter in front of `name` is taken for it. -/
theorem multipart_filename_taken_for_name :
    parseMultipart [] (b! "multipart/form-data; boundary=B")
      (b! "--B\r\nContent-Disposition: form-data; filename=\"x\"; name=\"a\"\r\n\r\nv\r\n--B--") =
      .ret true [(b! "x", b! "v")] := by decide +kernel

/-- A quoted boundary, as allowed in the content type, is not found in the body: nothing is returned. -/
theorem multipart_quoted_boundary_fails :
    parseMultipart [] (b! "multipart/form-data; boundary=\"B\"")
      (b! "--B\r\nContent-Disposition: form-data; name=\"a\"\r\n\r\nv\r\n--B--") = .ret false [] := by decide +kernel

end Verif.Props.Multipart
