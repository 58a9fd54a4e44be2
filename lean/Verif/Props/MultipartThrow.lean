import Verif.Lemmas.MultipartThrow
import Verif.Props.Multipart
/-
C54: every body with an empty part that has no line break of its own in front of the delimiter makes the parser compute a
negative length.
-/
namespace Verif.Props.Multipart
open Verif Verif.Multipart Verif.Spec.Multipart

/-- A body: text before the first part, well-formed parts, and then a part without data whose blank line is directly followed
    by the delimiter; `trail` is anything. -/
def cutBody (boundary lead : Bytes) (ps : List Part) (headers : List (Bytes × Bytes)) (trail : Bytes) : Bytes :=
  lead ++ ps.flatMap (Part.text (b! "--" ++ boundary)) ++
    ((b! "--" ++ boundary) ++ crlf ++ headers.flatMap headerLine ++ crlf ++ ((b! "--" ++ boundary) ++ trail))

/-- **C54 fails for every such body.** Whatever the boundary, the parts in front and the text that follows: if the part has a
    name, the computed length of its data is negative, so that `std::string::assign` throws an exception. -/
theorem multipart_negative_length_always (dict : Dict) (ctype boundary lead trail : Bytes) (ps : List (Part × Option Bytes))
    (headers : List (Bytes × Bytes)) (n : Bytes)
    (hb : 0x0d ∉ boundary ∧ 0x0a ∉ boundary)
    (hfirst : ∀ i < ctype.length, ¬ (b! "boundary=") <+: (ctype ++ b! "boundary=" ++ boundary).drop i)
    (hlead : lead = [] ∨ ∃ l, lead = l ++ crlf ∧ ¬ (b! "--" ++ boundary) <:+: l)
    (hps : ∀ p ∈ ps, PartOk (b! "--" ++ boundary) p.1 p.2)
    (hh : ∀ h ∈ headers, HeaderOk h) (hn : Named headers n) (hne0 : n ≠ []) :
    parseMultipart dict (ctype ++ b! "boundary=" ++ boundary) (cutBody boundary lead (ps.map (·.1)) headers trail) =
      .negativeLength := by
  have hcr : (0x0d : UInt8) ∉ b! "--" ++ boundary := by simp [hb.1]
  have hlf : (0x0a : UInt8) ∉ b! "--" ++ boundary := by simp [hb.2]
  have hne : b! "--" ++ boundary ≠ [] := by simp
  have hbound : findSub (b! "boundary=") (ctype ++ b! "boundary=" ++ boundary) = some ctype.length := by
    apply findSub_of
    · simp only [List.length_append]; omega
    · rw [List.append_assoc, List.drop_left' rfl]
      exact List.prefix_append _ _
    · exact hfirst
  have hdrop : (ctype ++ b! "boundary=" ++ boundary).drop (ctype.length + 9) = boundary :=
    List.drop_left' (by simp)
  generalize hB : cutBody boundary lead (ps.map (·.1)) headers trail = B
  have hBe : B.isEmpty = false := by
    rw [← hB]
    cases hh : cutBody boundary lead (ps.map (·.1)) headers trail with
    | nil => simp [cutBody] at hh
    | cons _ _ => rfl
  unfold parseMultipart
  rw [hBe, if_neg (by simp), hbound]
  dsimp only
  rw [hdrop]
  unfold cutBody at hB
  generalize hd : b! "--" ++ boundary = delim at *
  obtain ⟨rest0, hrest0⟩ : ∃ rest0, rest0 = crlf ++ headers.flatMap headerLine ++ crlf ++ (delim ++ trail) := ⟨_, rfl⟩
  have hBody : B = lead ++ ((ps.map (·.1)).flatMap (Part.text delim) ++ (delim ++ rest0)) := by
    rw [← hB, hrest0]; simp only [List.append_assoc]
  obtain ⟨rest, hrest⟩ : ∃ rest, (ps.map (·.1)).flatMap (Part.text delim) ++ (delim ++ rest0) = delim ++ rest := by
    cases ps with
    | nil => exact ⟨rest0, by simp⟩
    | cons q r =>
      refine ⟨crlf ++ (q.1.headers.flatMap headerLine ++ (crlf ++ (q.1.data ++ (crlf ++
        ((r.map (·.1)).flatMap (Part.text delim) ++ (delim ++ rest0)))))), ?_⟩
      rw [List.map_cons, List.flatMap_cons, Part.text]; simp only [List.append_assoc]
  have hsearch : search B delim 0 = lead.length := by
    rw [hBody, hrest]
    rcases hlead with rfl | ⟨l, rfl, hl⟩
    · unfold search
      rw [List.drop_zero, List.nil_append, findSub_of 0 (Nat.zero_le _) (List.prefix_append _ _) (fun i hi => absurd hi (Nat.not_lt_zero _))]
      rfl
    · rw [search_data (u := l) (rest := rest) hl hcr hlf hne (by simp)]
      simp [crlf]
  have hdropB : B.drop lead.length = (ps.map (·.1)).flatMap (Part.text delim) ++ (delim ++ rest0) := by
    rw [hBody]; exact List.drop_left' rfl
  rw [hsearch]
  obtain ⟨s', f', hs', g1⟩ := go_parts (bd := delim) (ps.map (·.1))
    (fun p hp => by
      obtain ⟨q, hq, rfl⟩ := List.mem_map.1 hp
      exact ⟨(hps q hq).headersOk, (hps q hq).dataOk⟩) hcr hlf hne dict false { dict := dict } ⟨rfl, rfl, rfl⟩
    lead.length _ hdropB
  have hd1 := drop_add_of_drop hdropB
  generalize lead.length + ((ps.map (·.1)).flatMap (Part.text delim)).length = p at g1 hd1
  obtain ⟨s2, hs2, g2⟩ := go_head (bd := delim) headers hh (by rw [fold_name headers n hn]; exact hne0) hne _ f' s' hs' p
    (delim ++ trail) (by rw [hd1, hrest0]; simp only [List.append_assoc])
  have hd2 : B.drop (p + (delim ++ crlf ++ headers.flatMap headerLine).length) = crlf ++ (delim ++ trail) := by
    apply drop_add_of_drop; rw [hd1, hrest0]; simp only [List.append_assoc]
  have e : p + (delim ++ crlf ++ headers.flatMap headerLine ++ crlf).length =
      p + (delim ++ crlf ++ headers.flatMap headerLine).length + 2 := by
    simp only [crlf, List.length_append, List.length_cons, List.length_nil]; omega
  rw [e] at g2
  obtain ⟨k, hk⟩ := g1.trans g2
  have hrun : loop B delim (1 + k) { dict := dict } lead.length = .negativeLength := by
    rw [hk 1]; exact step_negative s2 hs2 _ trail hne hd2 0
  have h1 := loop_fuel_mono (body := B) (bd := delim) (1 + k) (2 * B.length + 2) { dict := dict } lead.length
    (by rw [hrun]; simp)
  have h2 := loop_fuel_mono (body := B) (bd := delim) (2 * B.length + 2) (1 + k) { dict := dict } lead.length
    (loop_start_total _ rfl _)
  rw [← h2, Nat.add_comm, h1, hrun]

/-- Three parts in front, two of them fields. -/
example : parseMultipart [] (sampleType ++ b! "boundary=" ++ b! "XyZ")
    (cutBody (b! "XyZ") [] (sampleParts.map (·.1)) [(b! "Content-Disposition", b! "form-data; name=\"last\"")] (b! "--\r\n")) =
      .negativeLength := by
  refine multipart_negative_length_always [] sampleType (b! "XyZ") [] (b! "--\r\n") sampleParts _ (b! "last")
    (by decide) (by decide +kernel) (.inl rfl) sample_ok ?_
    ⟨[], [], _, b! "form-data; ", [], rfl, by decide +kernel, by decide +kernel, by decide +kernel, by decide +kernel⟩ (by decide)
  intro h hh
  simp only [List.mem_cons, List.not_mem_nil, or_false] at hh
  subst hh
  exact ⟨by decide, by decide +kernel, by decide +kernel, by decide, by decide⟩

end Verif.Props.Multipart
