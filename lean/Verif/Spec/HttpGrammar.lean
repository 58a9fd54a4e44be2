import Verif.Spec.HttpWire
/-
The texts that `http::parser` takes for the head of a message: a grammar, given without reference to the states of
the parser. It is more liberal than RFC 7230: line ends may be CR, LF or LF CR, lines of blanks are ignored, a line may
begin with blanks (which does not continue the line before), a request line may end after the target, ...
-/
namespace Verif.Http.Text

def isBlank (c : UInt8) : Bool := c = c! " " || c = 0x09

/-- The ends of lines. `old`: the request line has no version, or version 0; then CR LF ends the whole head. -/
inductive LineEnd (old : Bool) : Bytes → Prop
  | cr : LineEnd old [CR]
  | lf : LineEnd old [LF]
  | lfcr : LineEnd old [LF, CR]
  | crlf (h : old = false) : LineEnd old [CR, LF]

/-- Any number of lines of blanks: line ends, each with at least one blank after it. -/
inductive Gap (old : Bool) : Bytes → Prop
  | nil : Gap old []
  | line {g le ws : Bytes} : Gap old g → LineEnd old le → ws ≠ [] → (∀ c ∈ ws, isBlank c = true) → Gap old (g ++ le ++ ws)

/-- A header as it is written: name, colon, perhaps one space, value. Without the space the value must not begin with a
    character that cannot occur in a token. -/
structure Field (e : Bytes × Bytes) (t : Bytes) : Prop where
  ok : HeaderOk e
  text : t = e.1 ++ b! ": " ++ e.2 ∨ (t = e.1 ++ b! ":" ++ e.2 ∧ ∀ c ∈ e.2.head?, badToken c = false)

/-- Headers, each in a new line. -/
inductive Fields (old : Bool) : Dict → Bytes → Prop
  | nil : Fields old [] []
  | snoc {hs : Dict} {t g le ws f : Bytes} {e : Bytes × Bytes} : Fields old hs t → Gap old g → LineEnd old le →
      (∀ c ∈ ws, isBlank c = true) → Field e f → Fields old (hs ++ [e]) (t ++ g ++ le ++ ws ++ f)

/-- The empty line, after the line end `le` and before `rest`: the same single character again, or a line end after one
    of two characters; a single CR or LF there is noticed when a character follows. -/
inductive EmptyLine : Bytes → Bytes → Bytes → Prop
  | cr {rest : Bytes} : EmptyLine [CR] [CR] rest
  | lf {rest : Bytes} : EmptyLine [LF] [LF] rest
  | crlf {le rest : Bytes} : le.length = 2 → EmptyLine le [CR, LF] rest
  | lfcr {le rest : Bytes} : le.length = 2 → EmptyLine le [LF, CR] rest
  | cr1 {le rest : Bytes} {c : UInt8} : le.length = 2 → c ≠ LF → EmptyLine le [CR] (c :: rest)
  | lf1 {le rest : Bytes} {c : UInt8} : le.length = 2 → c ≠ CR → EmptyLine le [LF] (c :: rest)

/-- The end of a head before `rest`: an empty line, or CR LF if the request line has no version. -/
inductive HeadEnd (old : Bool) : Bytes → Bytes → Prop
  | empty {g le e rest : Bytes} : Gap old g → LineEnd old le → EmptyLine le e rest → HeadEnd old (g ++ le ++ e) rest
  | old {g rest : Bytes} : old = true → Gap old g → HeadEnd old (g ++ [CR, LF]) rest

/-- All that follows the first line. -/
def Lines (old : Bool) (hs : Dict) (t rest : Bytes) : Prop :=
  ∃ f e, t = f ++ e ∧ Fields old hs f ∧ HeadEnd old e rest

/-- A decimal number, kept in 16 bits. -/
def Number (n : Nat) (t : Bytes) : Prop := t ≠ [] ∧ (∀ c ∈ t, isDigit c = true) ∧ n = decVal t % 65536

/-- A version. In requests the first letter may be replaced by CR or LF, and the minor number may have spaces after its
    first digit. -/
def Version (isRequest : Bool) (major minor : Nat) (t : Bytes) : Prop :=
  ∃ c a b, t = [c] ++ b! "TTP/" ++ a ++ b! "." ++ b ∧ (c = c! "H" ∨ (isRequest = true ∧ (c = CR ∨ c = LF))) ∧
    Number major a ∧ Number minor (b.filter (· ≠ c! " ")) ∧ b.head? ≠ some (c! " ") ∧ (isRequest = false → c! " " ∉ b)

/-- The first line without its end. -/
inductive FirstLine : Head → Bytes → Prop
  | request {pre method resource query q v : Bytes} {major minor : Nat} : (∀ c ∈ pre, c = c! " " ∨ c = CR ∨ c = LF) →
      Token method → (∀ c ∈ resource, uriChar c) → resource.length ≤ 262144 →
      (∀ c ∈ query, queryChar c) → query.length ≤ 1048576 →
      (q = [] ∧ query = [] ∨ q = b! "?" ++ query) →
      (v = [] ∧ major = 0 ∧ minor = 0 ∨ ∃ x, v = b! " " ++ x ∧ Version true major minor x) →
      FirstLine (.request method resource query major minor) (pre ++ method ++ b! " " ++ resource ++ q ++ v)
  | response {v c text x : Bytes} {major minor code : Nat} : Version false major minor v → Number code c →
      (∀ c ∈ text, textChar c) → text.length ≤ 1024 → (x = [] ∧ text = [] ∨ x = b! " " ++ text) →
      FirstLine (.response major minor code text) (v ++ b! " " ++ c ++ x)

/-- A request without version, or with major version 0. -/
def old : Head → Bool
  | .request _ _ _ major _ => major == 0
  | .response .. => false

/-- The head of a message with the first line `h` and the headers `hs`, before `rest`. -/
def MessageHead (h : Head) (hs : Dict) (t rest : Bytes) : Prop :=
  ∃ f l, t = f ++ l ∧ FirstLine h f ∧ Lines (old h) hs l rest

/-- The value of a Content-Length header that is taken for the number `n`: digits, perhaps with a sign, white space around
    it; a negative number is taken modulo 2^64. -/
def LengthValue (n : Nat) (v : Bytes) : Prop :=
  ∃ sp sign d sp', v = sp ++ (sign ++ d) ++ sp' ∧ (∀ c ∈ sp ++ sp', isSpace c = true) ∧
    d ≠ [] ∧ (∀ c ∈ d, isDigit c = true) ∧ decVal d < 2 ^ 64 ∧
    ((sign = [] ∨ sign = b! "+") ∧ n = decVal d ∨ sign = b! "-" ∧ n = (2 ^ 64 - decVal d) % 2 ^ 64)

/-- The Content-Length header matters and cannot be read: no chunks are announced, the message may have a body, and the
    value of the header is not a number. -/
def BadLength (ord : Dict.Order) (rm : Bytes) (h : Head) (hs : Dict) : Prop :=
  ¬ AnnouncesChunks ord hs ∧ ¬ h.Bodyless rm ∧
    ∃ v, hs.find? ord (b! "Content-Length") = some v ∧ ∀ n, ¬ LengthValue n v

end Verif.Http.Text
