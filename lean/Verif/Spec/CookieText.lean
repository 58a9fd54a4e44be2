import Verif.Spec.Cookie
/-
What the text of a Cookie or Set-Cookie header says, for every text: a grammar that covers all texts, the cookies that are kept,
and the texts that are refused. (`Spec/Cookie` describes the well-formed lists only.)
-/
namespace Verif.Spec.Cookie

/-- One entry of the list: the text of the name, the value, and whether it was written in quotes. -/
structure Entry where
  nameText : Bytes
  value : Bytes := []
  quoted : Bool := false
  deriving Repr, DecidableEq

/-- Spaces in the name are left out, wherever they stand. -/
def Entry.name (e : Entry) : Bytes := e.nameText.filter (· != c! " ")

def isSep (c : UInt8) : Bool := c == c! ";" || c == c! ","
def isQuote (c : UInt8) : Bool := c == c! "'" || c == c! "\""

/-- The text of a name. -/
def NameText (n : Bytes) : Prop := ∀ c ∈ n, c ≠ c! "=" ∧ isSep c = false
/-- Spaces. -/
def Spaces (s : Bytes) : Prop := ∀ c ∈ s, c = c! " "
/-- A value without quotes: no separator, and it begins with neither a space nor a quote. -/
def Unquoted (v : Bytes) : Prop := (∀ c ∈ v, isSep c = false) ∧ ∀ c ∈ v.head?, c ≠ c! " " ∧ isQuote c = false
/-- Text that is passed over after a closing quote. -/
def Passed (x : Bytes) : Prop := ∀ c ∈ x, isSep c = false

/-- How a text is divided into entries. -/
inductive Reads : Bytes → List Entry → Prop
  | lastName {n} (hn : NameText n) : Reads n [⟨n, [], false⟩]
  | bareName {n sep r l} (hn : NameText n) (hs : isSep sep = true) (h : Reads r l) : Reads (n ++ sep :: r) (⟨n, [], false⟩ :: l)
  | lastPlain {n sp v} (hn : NameText n) (hp : Spaces sp) (hv : Unquoted v) : Reads (n ++ c! "=" :: (sp ++ v)) [⟨n, v, false⟩]
  | plain {n sp v sep r l} (hn : NameText n) (hp : Spaces sp) (hv : Unquoted v) (hs : isSep sep = true) (h : Reads r l) :
      Reads (n ++ c! "=" :: (sp ++ (v ++ sep :: r))) (⟨n, v, false⟩ :: l)
  | openQuote {n sp q v} (hn : NameText n) (hp : Spaces sp) (hq : isQuote q = true) (hv : q ∉ v) :
      Reads (n ++ c! "=" :: (sp ++ q :: v)) [⟨n, v, true⟩]
  | lastQuoted {n sp q v x} (hn : NameText n) (hp : Spaces sp) (hq : isQuote q = true) (hv : q ∉ v) (hx : Passed x) :
      Reads (n ++ c! "=" :: (sp ++ q :: (v ++ q :: x))) [⟨n, v, true⟩]
  | quoted {n sp q v x sep r l} (hn : NameText n) (hp : Spaces sp) (hq : isQuote q = true) (hv : q ∉ v) (hx : Passed x)
      (hs : isSep sep = true) (h : Reads r l) :
      Reads (n ++ c! "=" :: (sp ++ q :: (v ++ q :: (x ++ sep :: r)))) (⟨n, v, true⟩ :: l)

/-- The entries that are accepted: names up to 1024 and values up to 1048576 characters, without control characters; only a
    value in quotes may have them. -/
structure Entry.Ok (e : Entry) : Prop where
  nameChars : ∀ c ∈ e.nameText, ctl c = false
  nameMax : e.name.length ≤ 1024
  valueChars : e.quoted = true ∨ ∀ c ∈ e.value, ctl c = false
  valueMax : e.value.length ≤ 1048576

/-- What an entry says: nothing, if it has no name, or one that is an attribute. -/
def Entry.tells (setCookie : Bool) (e : Entry) : List (Bytes × Bytes) :=
  if e.name = [] ∨ isAttr setCookie e.name = true then [] else [(e.name, e.value)]

end Verif.Spec.Cookie
