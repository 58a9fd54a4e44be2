import Verif.Base
/-
Model of `algorithm::xml_encode` (/repo/src/algorithm.cpp:236-310).
-/
namespace Verif.XmlEncode

/-- `UTF8_REPLACEMENT_CHAR` (/repo/src/algorithm.cpp:23). -/
def replacement : Bytes := [0xEF, 0xBF, 0xBD]

/-- `*(ptr+1+k)` where `rest` are the bytes of the string after `*ptr`: `str.c_str()` provides one
    further NUL byte, reading beyond that is out of bounds (`none`). -/
def peek (rest : Bytes) (k : Nat) : Option UInt8 := (rest ++ [0])[k]?

/-- `*(ptr+1+k) >= 0x80 && *(ptr+1+k) <= 0xBF`. -/
def isCont? (rest : Bytes) (k : Nat) : Option Bool :=
  (peek rest k).map fun c => decide (0x80 ≤ c ∧ c ≤ 0xBF)

/-- Short-circuit `&&` of conditions which may read out of bounds. -/
def andThen (a : Option Bool) (b : Unit → Option Bool) : Option Bool :=
  match a with
  | none => none
  | some false => some false
  | some true => b ()

/-- The inner `switch` for ASCII characters (/repo/src/algorithm.cpp:249-268). -/
def ascii (c : UInt8) : Bytes :=
  if c = c! "&" then b! "&amp;"
  else if c = c! "<" then b! "&lt;"
  else if c = c! ">" then b! "&gt;"
  else if c = c! "\"" then b! "&quot;"
  else if c = c! "'" then b! "&apos;"
  else [c]

/-- `algorithm::xml_encode` (/repo/src/algorithm.cpp:236-310): the argument is the text from `ptr` to
    `end_ptr`; the result is `none` if the code would read outside the string. -/
def xmlEncode? : Bytes → Option Bytes
  | [] => some []
  | c :: rest =>
    if (0x20 ≤ c ∧ c ≤ 0x7F) ∨ c = 0x9 ∨ c = 0xa ∨ c = 0xd then
      (xmlEncode? rest).map (ascii c ++ ·)
    else if 0xC2 ≤ c ∧ c ≤ 0xDF then
      match isCont? rest 0 with
      | none => none
      | some false => (xmlEncode? rest).map (replacement ++ ·)
      | some true =>
        match rest with
        | c1 :: r => (xmlEncode? r).map ([c, c1] ++ ·)
        | [] => none
    else if 0xE0 ≤ c ∧ c ≤ 0xEF then
      match andThen (isCont? rest 0) fun _ => isCont? rest 1 with
      | none => none
      | some false => (xmlEncode? rest).map (replacement ++ ·)
      | some true =>
        match rest with
        | c1 :: c2 :: r => (xmlEncode? r).map ([c, c1, c2] ++ ·)
        | _ => none
    else if 0xF0 ≤ c ∧ c ≤ 0xF4 then
      match andThen (isCont? rest 0) fun _ => andThen (isCont? rest 1) fun _ => isCont? rest 2 with
      | none => none
      | some false => (xmlEncode? rest).map (replacement ++ ·)
      | some true =>
        match rest with
        | c1 :: c2 :: c3 :: r => (xmlEncode? r).map ([c, c1, c2, c3] ++ ·)
        | _ => none
    else (xmlEncode? rest).map (replacement ++ ·)

end Verif.XmlEncode
