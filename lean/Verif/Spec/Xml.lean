import Verif.Base
/-
Specification vocabulary for XML escaping and UTF-8. Independent of the model.
-/
namespace Verif.Spec.Xml

/-- The five predefined XML entities with the character they denote (text after the '&'). -/
def entities : List (Bytes × UInt8) :=
  [(b! "amp;", c! "&"), (b! "lt;", c! "<"), (b! "gt;", c! ">"), (b! "quot;", c! "\""), (b! "apos;", c! "'")]

/-- Find the entity at the start of a text (which follows a '&'). -/
def entityAt (s : Bytes) : Option (Bytes × UInt8) := entities.find? fun e => e.1.isPrefixOf s

/-- Characters that must not occur raw in text or attribute values. -/
def forbidden : Bytes := b! "<>\"'"

/-- No raw markup, every '&' starts a predefined entity, no control characters besides tab, LF, CR. -/
def safe : Bytes → Bool
  | [] => true
  | c :: rest =>
    (if c = c! "&" then (entityAt rest).isSome else !forbidden.contains c) &&
    (0x20 ≤ c || c = 0x09 || c = 0x0a || c = 0x0d) && safe rest

/-- Replace the entities by their characters (`n` bounds the number of steps; the text length suffices). -/
def unescapeN : Nat → Bytes → Bytes
  | 0, s => s
  | _ + 1, [] => []
  | n + 1, c :: rest =>
    if c = c! "&" then
      match entityAt rest with
      | some (e, d) => d :: unescapeN n (rest.drop e.length)
      | none => c :: unescapeN n rest
    else c :: unescapeN n rest

/-- Reading back escaped text. -/
def unescape (s : Bytes) : Bytes := unescapeN s.length s

/-- Continuation byte. -/
def cont (c : UInt8) : Bool := 0x80 ≤ c && c ≤ 0xBF

/-- Well-formed UTF-8 (RFC 3629, section 4). -/
def utf8 : Bytes → Bool
  | [] => true
  | c :: rest =>
    if c ≤ 0x7F then utf8 rest
    else if 0xC2 ≤ c ∧ c ≤ 0xDF then
      match rest with
      | c1 :: r => cont c1 && utf8 r
      | _ => false
    else if 0xE0 ≤ c ∧ c ≤ 0xEF then
      match rest with
      | c1 :: c2 :: r =>
        cont c1 && cont c2 && (c != 0xE0 || 0xA0 ≤ c1) && (c != 0xED || c1 ≤ 0x9F) && utf8 r
      | _ => false
    else if 0xF0 ≤ c ∧ c ≤ 0xF4 then
      match rest with
      | c1 :: c2 :: c3 :: r =>
        cont c1 && cont c2 && cont c3 && (c != 0xF0 || 0x90 ≤ c1) && (c != 0xF4 || c1 ≤ 0x8F) && utf8 r
      | _ => false
    else false

/-- Byte structure of UTF-8 only: lead bytes followed by the right number of continuation bytes. -/
def utf8Structure : Bytes → Bool
  | [] => true
  | c :: rest =>
    if c ≤ 0x7F then utf8Structure rest
    else if 0xC2 ≤ c ∧ c ≤ 0xDF then
      match rest with
      | c1 :: r => cont c1 && utf8Structure r
      | _ => false
    else if 0xE0 ≤ c ∧ c ≤ 0xEF then
      match rest with
      | c1 :: c2 :: r => cont c1 && cont c2 && utf8Structure r
      | _ => false
    else if 0xF0 ≤ c ∧ c ≤ 0xF4 then
      match rest with
      | c1 :: c2 :: c3 :: r => cont c1 && cont c2 && cont c3 && utf8Structure r
      | _ => false
    else false

/-- Adjacent bytes which start an overlong form, a surrogate or a code point above U+10FFFF. -/
def badPair (c c1 : UInt8) : Bool :=
  (c = 0xE0 && c1 < 0xA0) || (c = 0xED && 0x9F < c1) || (c = 0xF0 && c1 < 0x90) || (c = 0xF4 && 0x8F < c1)

/-- Some adjacent bytes are a `badPair`. -/
def hasBadPair : Bytes → Bool
  | c :: c1 :: r => badPair c c1 || hasBadPair (c1 :: r)
  | _ => false

/-- Text without C0 control characters other than tab, LF, CR. -/
def noControls (s : Bytes) : Bool := s.all fun c => 0x20 ≤ c || c = 0x09 || c = 0x0a || c = 0x0d

end Verif.Spec.Xml
