import Verif.Spec.Base64
/-
The text of a multipart/form-data body (RFC 2046, RFC 7578). Independent of the parser.
-/
namespace Verif.Spec.Multipart

/-- CRLF. -/
def crlf : Bytes := [0x0d, 0x0a]

/-- One part: header lines and data. -/
structure Part where
  headers : List (Bytes × Bytes)
  data : Bytes
  deriving Repr, DecidableEq

def headerLine (h : Bytes × Bytes) : Bytes := h.1 ++ b! ": " ++ h.2 ++ crlf

/-- A part, starting with the delimiter line `--boundary`. -/
def Part.text (delim : Bytes) (p : Part) : Bytes :=
  delim ++ crlf ++ p.headers.flatMap headerLine ++ crlf ++ p.data ++ crlf

/-- A whole body: text before the first part, the parts, the closing delimiter, text after it. -/
def body (boundary lead : Bytes) (ps : List Part) (trail : Bytes) : Bytes :=
  lead ++ ps.flatMap (Part.text (b! "--" ++ boundary)) ++ (b! "--" ++ boundary) ++ b! "--" ++ trail

/-- A header line the parser can read: a name without ':' and a value, both without line breaks. -/
structure HeaderOk (h : Bytes × Bytes) : Prop where
  nameNe : h.1 ≠ []
  nameChar : ∀ c ∈ h.1, c ≠ 0x0d ∧ c ≠ 0x0a ∧ c ≠ c! ":"
  valueChar : ∀ c ∈ h.2, c ≠ 0x0d ∧ c ≠ 0x0a
  valueNe : h.2 ≠ []
  valueHead : h.2.head? ≠ some (c! " ")

/-- Equality of header names, ignoring letter case. -/
def sameName (x y : Bytes) : Bool := upcase x == upcase y
where
  upcase (s : Bytes) : Bytes := s.map fun c => if 0x61 ≤ c ∧ c ≤ 0x7a then c - 0x20 else c

/-- The part has one Content-Disposition header, `pre name="n" post`; `name="` does not occur in `pre`. -/
structure Named (hs : List (Bytes × Bytes)) (n : Bytes) : Prop where
  intro ::
  some : ∃ before after key pre post,
    hs = before ++ (key, pre ++ b! "name=\"" ++ n ++ c! "\"" :: post) :: after ∧
    sameName key (b! "Content-Disposition") = true ∧
    (∀ h ∈ before ++ after, sameName h.1 (b! "Content-Disposition") = false) ∧
    (∀ i < pre.length, ¬ (b! "name=\"") <+: (pre ++ b! "name=\"" ++ n ++ c! "\"" :: post).drop i) ∧
    c! "\"" ∉ n

/-- Value of the last Content-Type header, the empty string if there is none. -/
def typeOf (hs : List (Bytes × Bytes)) : Bytes :=
  ((hs.filter fun h => sameName h.1 (b! "Content-Type")).map (·.2)).getLast?.getD []

/-- The part is text: it has no Content-Type or one that begins with text/. -/
def isText (hs : List (Bytes × Bytes)) : Bool := typeOf hs == [] || sameName ((typeOf hs).take 5) (b! "text/")

/-- The value stored for a part: its data, or a base64 text for data that is not text. -/
def Part.value (p : Part) : Bytes :=
  if isText p.headers then p.data
  else b! "data:" ++ typeOf p.headers ++ b! "; base64, " ++ Spec.Base64.encode p.data

end Verif.Spec.Multipart
