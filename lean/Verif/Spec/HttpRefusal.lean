import Verif.Spec.HttpGrammar
/-
Why the head of a message is refused: at which byte, and what is wrong with it. Given in terms of the grammar of heads (C67), without
reference to the states of the parser.
-/
namespace Verif.Http.Text

/-- A text with which some head of the grammar begins, or a head and what follows it. -/
def Viable (isRequest : Bool) (t : Bytes) : Prop :=
  ∃ h hs w rest, MessageHead h hs w rest ∧ h.isRequest = isRequest ∧ t <+: w ++ rest

/-- Blanks and line ends before a request are ignored. -/
def Skipped (t : Bytes) : Prop := ∀ c ∈ t, c = c! " " ∨ c = CR ∨ c = LF

/-- A request line up to the end of the target. -/
inductive TargetText : Bytes → Prop
  | stem {pre m u : Bytes} : Skipped pre → Token m → (∀ c ∈ u, uriChar c) → u.length ≤ 262144 → TargetText (pre ++ m ++ b! " " ++ u)
  | query {pre m u q : Bytes} : Skipped pre → Token m → (∀ c ∈ u, uriChar c) → u.length ≤ 262144 → (∀ c ∈ q, queryChar c) →
      q.length ≤ 1048576 → TargetText (pre ++ m ++ b! " " ++ u ++ b! "?" ++ q)

/-- What comes before a version: in a request the target and a space, in a response nothing. -/
inductive BeforeVersion : Bool → Bytes → Prop
  | request {t : Bytes} : TargetText t → BeforeVersion true (t ++ b! " ")
  | response : BeforeVersion false []

/-- The first letter of a version: an H, which a request may replace by a line end. -/
def FirstLetter (isRequest : Bool) (c : UInt8) : Prop := c = c! "H" ∨ (isRequest = true ∧ (c = CR ∨ c = LF))

/-- A head up to a place where a header may begin. -/
def LineBegun (isRequest : Bool) (t : Bytes) : Prop :=
  ∃ h hs f fs g le ws, h.isRequest = isRequest ∧ FirstLine h f ∧ Fields (old h) hs fs ∧ Gap (old h) g ∧ LineEnd (old h) le ∧
    (∀ c ∈ ws, isBlank c = true) ∧ t = f ++ fs ++ g ++ le ++ ws

/-- A head up to a place in the value of a header. -/
inductive ValueBegun (isRequest : Bool) : Bytes → Bytes → Prop
  | spaced {t n v : Bytes} : LineBegun isRequest t → HeaderOk (n, v) → ValueBegun isRequest (t ++ n ++ b! ": " ++ v) v
  | direct {t n v : Bytes} : LineBegun isRequest t → HeaderOk (n, v) → v ≠ [] → (∀ c ∈ v.head?, badToken c = false) →
      ValueBegun isRequest (t ++ n ++ b! ":" ++ v) v

/-- What is wrong, according to the error: `Cause isRequest e t c`, after `t` the byte `c` is wrong. -/
inductive Cause (isRequest : Bool) : Err → Bytes → UInt8 → Prop
  /-- a character that cannot be in a method -/
  | methodFirst {t : Bytes} {c : UInt8} : isRequest = true → Skipped t → badToken c = true → c ≠ c! " " → c ≠ CR → c ≠ LF →
      Cause isRequest .methodChar t c
  | method {pre m : Bytes} {c : UInt8} : isRequest = true → Skipped pre → Token m → badToken c = true → c ≠ c! " " →
      Cause isRequest .methodChar (pre ++ m) c
  /-- a method of more than 1024 characters -/
  | methodSize {pre m : Bytes} {c : UInt8} : isRequest = true → Skipped pre → Token m → m.length = 1024 → badToken c = false →
      Cause isRequest .methodSize (pre ++ m) c
  /-- a control character in the target -/
  | uri {pre m u : Bytes} {c : UInt8} : isRequest = true → Skipped pre → Token m → (∀ c ∈ u, uriChar c) → u.length ≤ 262144 →
      isControl c = true → c ≠ CR → c ≠ LF → Cause isRequest .uriChar (pre ++ m ++ b! " " ++ u) c
  /-- a target of more than 262144 characters -/
  | uriSize {pre m u : Bytes} {c : UInt8} : isRequest = true → Skipped pre → Token m → (∀ c ∈ u, uriChar c) → u.length = 262144 →
      uriChar c → Cause isRequest .uriSize (pre ++ m ++ b! " " ++ u) c
  /-- a control character in the query string -/
  | query {pre m u q : Bytes} {c : UInt8} : isRequest = true → Skipped pre → Token m → (∀ c ∈ u, uriChar c) → u.length ≤ 262144 →
      (∀ c ∈ q, queryChar c) → q.length ≤ 1048576 → isControl c = true → c ≠ CR → c ≠ LF →
      Cause isRequest .queryChar (pre ++ m ++ b! " " ++ u ++ b! "?" ++ q) c
  /-- a query string of more than 1048576 characters -/
  | querySize {pre m u q : Bytes} {c : UInt8} : isRequest = true → Skipped pre → Token m → (∀ c ∈ u, uriChar c) → u.length ≤ 262144 →
      (∀ c ∈ q, queryChar c) → q.length = 1048576 → queryChar c →
      Cause isRequest .querySize (pre ++ m ++ b! " " ++ u ++ b! "?" ++ q) c
  /-- a response that begins with a line end -/
  | versionEmpty {c : UInt8} : isRequest = false → (c = CR ∨ c = LF) → Cause isRequest .versionEmpty [] c
  /-- something else than a version -/
  | versionFirst {p : Bytes} {c : UInt8} : BeforeVersion isRequest p → c ≠ c! "H" → c ≠ CR → c ≠ LF → Cause isRequest .versionChar p c
  | versionName {p v y : Bytes} {l c d : UInt8} : BeforeVersion isRequest p → FirstLetter isRequest l → v ++ d :: y = b! "TTP/" →
      c ≠ d → Cause isRequest .versionChar (p ++ [l] ++ v) c
  | majorFirst {p : Bytes} {l c : UInt8} : BeforeVersion isRequest p → FirstLetter isRequest l → isDigit c = false →
      Cause isRequest .versionChar (p ++ [l] ++ b! "TTP/") c
  | major {p a : Bytes} {l c : UInt8} {n : Nat} : BeforeVersion isRequest p → FirstLetter isRequest l → Number n a →
      isDigit c = false → c ≠ c! "." → Cause isRequest .versionChar (p ++ [l] ++ b! "TTP/" ++ a) c
  | minorFirst {p a : Bytes} {l c : UInt8} {n : Nat} : BeforeVersion isRequest p → FirstLetter isRequest l → Number n a →
      isDigit c = false → Cause isRequest .versionChar (p ++ [l] ++ b! "TTP/" ++ a ++ b! ".") c
  | minor {p v : Bytes} {c : UInt8} {n k : Nat} : BeforeVersion isRequest p → Version isRequest n k v →
      isDigit c = false → c ≠ c! " " → c ≠ CR → c ≠ LF → Cause isRequest .versionChar (p ++ v) c
  /-- a response whose first line ends after the version -/
  | statusEmpty {v : Bytes} {c : UInt8} {n k : Nat} : isRequest = false → Version false n k v → (c = CR ∨ c = LF) →
      Cause isRequest .statusEmpty v c
  /-- something else than a number for the status, or a control character in its text -/
  | codeFirst {v : Bytes} {c : UInt8} {n k : Nat} : isRequest = false → Version false n k v → isDigit c = false →
      Cause isRequest .statusChar (v ++ b! " ") c
  | code {v x : Bytes} {c : UInt8} {n k code : Nat} : isRequest = false → Version false n k v → Number code x →
      isDigit c = false → c ≠ c! " " → c ≠ CR → c ≠ LF → Cause isRequest .statusChar (v ++ b! " " ++ x) c
  | text {v x y : Bytes} {c : UInt8} {n k code : Nat} : isRequest = false → Version false n k v → Number code x →
      (∀ c ∈ y, textChar c) → y.length ≤ 1024 → isControl c = true → c ≠ CR → c ≠ LF →
      Cause isRequest .statusChar (v ++ b! " " ++ x ++ b! " " ++ y) c
  /-- ... or a text of more than 1024 characters, for which there is no error of its own -/
  | textSize {v x y : Bytes} {c : UInt8} {n k code : Nat} : isRequest = false → Version false n k v → Number code x →
      (∀ c ∈ y, textChar c) → y.length = 1024 → textChar c → Cause isRequest .statusChar (v ++ b! " " ++ x ++ b! " " ++ y) c
  /-- a character that cannot be in the name of a header -/
  | nameFirst {t : Bytes} {c : UInt8} : LineBegun isRequest t → badToken c = true → c ≠ CR → c ≠ LF → isBlank c = false →
      Cause isRequest .headerChar t c
  | name {t n : Bytes} {c : UInt8} : LineBegun isRequest t → Token n → badToken c = true → c ≠ c! ":" →
      Cause isRequest .headerChar (t ++ n) c
  /-- the name of a header of more than 1024 characters -/
  | nameSize {t n : Bytes} {c : UInt8} : LineBegun isRequest t → Token n → n.length = 1024 → badToken c = false →
      Cause isRequest .headerNameSize (t ++ n) c
  /-- right after the colon a character that cannot be in a name -/
  | valueFirst {t n : Bytes} {c : UInt8} : LineBegun isRequest t → Token n → badToken c = true → c ≠ c! " " → c ≠ CR → c ≠ LF →
      Cause isRequest .headerChar (t ++ n ++ b! ":") c
  /-- a control character in the value of a header -/
  | value {t v : Bytes} {c : UInt8} : ValueBegun isRequest t v → isControl c = true → c ≠ 0x09 → c ≠ CR → c ≠ LF →
      Cause isRequest .headerChar t c
  /-- the value of a header of more than 1048576 characters -/
  | valueSize {t v : Bytes} {c : UInt8} : ValueBegun isRequest t v → v.length = 1048576 → valueChar c →
      Cause isRequest .headerValueSize t c

end Verif.Http.Text
