import Verif.Lemmas.FormBody
/-
C111: what any body, well-formed or not, can put into the parameters of a request. The specification is `Spec/FormBody`.
-/
namespace Verif.Props.FormBody
open Verif Verif.Multipart Verif.Spec.FormBody

/-- **C111 (nothing is invented).** Whatever the body, the dictionary keeps what it held, and what is added are entries
    made of stretches of the body, in their order and with a delimiter between any two of them, whether the body is
    accepted or refused in the end. -/
theorem nothing_invented (dict d : Dict) (ctype boundary body : Bytes) (ok : Bool)
    (hfirst : ∀ i < ctype.length, ¬ (b! "boundary=") <+: (ctype ++ b! "boundary=" ++ boundary).drop i)
    (h : parseMultipart dict (ctype ++ b! "boundary=" ++ boundary) body = .ret ok d) :
    ∃ l : List Piece, d = dict ++ l.map (·.entry) ∧ (∀ p ∈ l, p.Honest (b! "--" ++ boundary) body) ∧
      l.Pairwise (Piece.Before (b! "--" ++ boundary) body) := by
  have hbound : findSub (b! "boundary=") (ctype ++ b! "boundary=" ++ boundary) = some ctype.length := by
    apply findSub_of
    · simp only [List.length_append]; omega
    · rw [List.append_assoc, List.drop_left' rfl]
      exact List.prefix_append _ _
    · exact hfirst
  have hdrop : (ctype ++ b! "boundary=" ++ boundary).drop (ctype.length + 9) = boundary :=
    List.drop_left' (by simp)
  unfold parseMultipart at h
  split at h
  · cases h
    exact ⟨[], by simp, nofun, List.Pairwise.nil⟩
  · rw [hbound] at h
    dsimp only at h
    rw [hdrop] at h
    obtain ⟨l, h1, _, h3, h4⟩ := loop_honest (by simp) _ _ _ _ _
      ⟨oneLine_nil, oneLine_nil, oneLine_nil, List.not_mem_nil⟩ h
    exact ⟨l, h1, h4, h3⟩

/-- Stretches that follow one another are together no longer than what they are taken from. -/
theorem sum_le (delim body : Bytes) (l : List Piece) : ∀ k ≤ body.length, (∀ p ∈ l, k ≤ p.first) →
    (∀ p ∈ l, p.Honest delim body) → l.Pairwise (Piece.Before delim body) →
    (l.map fun p => (p.data body).length).sum + k ≤ body.length := by
  induction l with
  | nil => intro k hk _ _ _; simpa using hk
  | cons a l ih =>
    intro k _ hf hh hp
    obtain ⟨ha, hp⟩ := List.pairwise_cons.1 hp
    have hin := (hh a List.mem_cons_self).inside
    have hka := hf a List.mem_cons_self
    have := ih a.behind hin.2 (fun p hx => (ha p hx).1) (fun p hx => hh p (List.mem_cons_of_mem _ hx)) hp
    have hl : (a.data body).length = a.behind - a.first := by
      unfold Piece.data
      rw [List.length_take, List.length_drop]
      omega
    rw [List.map_cons, List.sum_cons, hl]
    omega

/-- **C111 (nothing is taken twice).** The data of all entries together is no longer than the body. -/
theorem taken_once (dict d : Dict) (ctype boundary body : Bytes) (ok : Bool)
    (hfirst : ∀ i < ctype.length, ¬ (b! "boundary=") <+: (ctype ++ b! "boundary=" ++ boundary).drop i)
    (h : parseMultipart dict (ctype ++ b! "boundary=" ++ boundary) body = .ret ok d) :
    ∃ l : List Piece, d = dict ++ l.map (·.entry) ∧ (∀ p ∈ l, p.Honest (b! "--" ++ boundary) body) ∧
      (l.map fun p => (p.data body).length).sum ≤ body.length := by
  obtain ⟨l, h1, h2, h3⟩ := nothing_invented dict d ctype boundary body ok hfirst h
  exact ⟨l, h1, h2, sum_le _ _ l 0 (Nat.zero_le _) (fun _ _ => Nat.zero_le _) h2 h3⟩

/-- **C111 (no boundary).** If the type of the content names no boundary, nothing is added, and a body that is not empty is
    refused. -/
theorem no_boundary (dict : Dict) (ctype body : Bytes) (h : ¬ (b! "boundary=") <:+: ctype) :
    parseMultipart dict ctype body = .ret body.isEmpty dict := by
  have hn : findSub (b! "boundary=") ctype = none := by
    cases hf : findSub (b! "boundary=") ctype with
    | none => rfl
    | some k =>
      obtain ⟨_, h2, _⟩ := findSub_some hf
      exact absurd (h2.isInfix.trans (List.drop_suffix k ctype).isInfix) h
  unfold parseMultipart
  rw [hn]
  cases body <;> rfl

/-- **C111 (whole parts, as far as it holds).** Every value but the last is a whole part: a delimiter follows it. -/
theorem whole_partial (dict d : Dict) (ctype boundary body : Bytes) (ok : Bool)
    (hfirst : ∀ i < ctype.length, ¬ (b! "boundary=") <+: (ctype ++ b! "boundary=" ++ boundary).drop i)
    (h : parseMultipart dict (ctype ++ b! "boundary=" ++ boundary) body = .ret ok d) :
    ∃ l : List Piece, d = dict ++ l.map (·.entry) ∧ (∀ p ∈ l, p.Honest (b! "--" ++ boundary) body) ∧
      ∀ p ∈ l.dropLast, (b! "--" ++ boundary) <:+: body.drop p.behind := by
  obtain ⟨l, h1, h2, h3⟩ := nothing_invented dict d ctype boundary body ok hfirst h
  refine ⟨l, h1, h2, fun p hp => ?_⟩
  have hne : l ≠ [] := by rintro rfl; cases hp
  rw [← List.dropLast_concat_getLast hne, List.pairwise_append] at h3
  exact (h3.2.2 p hp _ (List.mem_singleton.2 rfl)).2.trans (List.take_prefix _ _).isInfix

/-- **C111 fails for a body that was cut off**: it is accepted, with a value that is not whole. -/
theorem cut_accepted :
    parseMultipart [] (b! "multipart/form-data; boundary=B")
        (b! "--B\r\nContent-Disposition: form-data; name=\"a\"\r\n\r\nhello\r\n--B--") = .ret true [(b! "a", b! "hello")] ∧
    parseMultipart [] (b! "multipart/form-data; boundary=B")
        (b! "--B\r\nContent-Disposition: form-data; name=\"a\"\r\n\r\nhel") = .ret true [(b! "a", b! "hel")] := by
  decide +kernel

/-- A body that was cut off inside the delimiter: its first part belongs to the value. -/
theorem cut_delimiter_taken :
    parseMultipart [] (b! "multipart/form-data; boundary=BB")
        (b! "--BB\r\nContent-Disposition: form-data; name=\"a\"\r\n\r\nhello\r\n--B") =
      .ret true [(b! "a", b! "hello\r\n--B")] := by decide +kernel

/-- A part without a name is skipped if the lines end with CR LF, and added with the empty name if they end with LF. -/
theorem unnamed_added :
    parseMultipart [] (b! "multipart/form-data; boundary=B") (b! "--B\r\nX: y\r\n\r\nv\r\n--B--") = .ret true [] ∧
    parseMultipart [] (b! "multipart/form-data; boundary=B") (b! "--B\nX: y\n\nv\n--B--") = .ret true [([], b! "v\n")] := by
  decide +kernel

/-- Two Content-Disposition headers: the name of the entry is neither of the two names. -/
theorem names_joined :
    parseMultipart [] (b! "multipart/form-data; boundary=B")
        (b! "--B\r\nContent-Disposition: form-data; name=\"us\"\r\nContent-Disposition: form-data; name=\"er\"\r\n\r\nv\r\n--B--") =
      .ret true [(b! "user", b! "v")] := by decide +kernel

/-- A body that is refused in the end, after two entries. -/
def sample : Bytes := b! "--B\r\nContent-Disposition: form-data; name=\"a\"\r\n\r\nx\r\n--B\r\nContent-Disposition: form-data; name=\"b\"\r\n\r\ny--B?"

/-- The stretches it is made of. -/
def samplePieces : List Piece := [⟨49, 50, b! "a", b! "x"⟩, ⟨101, 102, b! "b", b! "y"⟩]

example :
    (∀ i < (b! "multipart/form-data; ").length,
      ¬ (b! "boundary=") <+: (b! "multipart/form-data; " ++ b! "boundary=" ++ b! "B").drop i) ∧
    parseMultipart [(b! "q", b! "1")] (b! "multipart/form-data; " ++ b! "boundary=" ++ b! "B") sample =
      .ret false ([(b! "q", b! "1")] ++ samplePieces.map (·.entry)) ∧
    samplePieces.map (·.data sample) = [b! "x", b! "y"] := by
  decide +kernel

example : ¬ (b! "boundary=") <:+: (b! "multipart/form-data") := by decide +kernel

end Verif.Props.FormBody
