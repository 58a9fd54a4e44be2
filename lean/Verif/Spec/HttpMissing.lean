import Verif.Spec.HttpUse
/-
Streams with lost parts, as they are reported to `http::parser` with `parse_missing_data`.
-/
namespace Verif.Http

/-- A part of a stream: received bytes, or a number of lost ones. -/
inductive Seg
  | data (b : Bytes)
  | gap (n : Nat)

/-- The received bytes; for lost ones as many `X`. -/
def Seg.filler : Seg → Bytes
  | .data b => b
  | .gap n => List.replicate n (c! "X")

/-- A part is not empty. -/
def Seg.nonempty : Seg → Prop
  | .data b => b ≠ []
  | .gap n => 0 < n

/-- Hand the parts to the parser, received ones with `parse`, lost ones with `parse_missing_data`, while it wants
    more: the result, the state, the unread bytes of the current part, the unused parts. -/
def play (cfg : Cfg) : S → List Seg → Option (Tri × S × Bytes × List Seg)
  | s, [] => some (.more, s, [], [])
  | s, .data b :: r =>
    match parse cfg s b with
    | none => none
    | some (.more, s', _) => play cfg s' r
    | some (rc, s', rest) => some (rc, s', rest, r)
  | s, .gap n :: r =>
    match parseMissing cfg s n with
    | (.more, s') => play cfg s' r
    | (rc, s') => some (rc, s', [], r)

/-- The lost bytes stay within the maximum content length. -/
def Fits (cfg : Cfg) (s : S) (n : Nat) : Prop :=
  cfg.handler = true ∨
    (if s.ms = .content then s.contentRead + n ≤ cfg.maxContent else s.msg.chunkCache.length + n ≤ cfg.maxContent)

/-- ... at every gap of the stream the parser accepts. -/
def FitsAll (cfg : Cfg) : S → List Seg → Prop
  | _, [] => True
  | s, .data b :: r => ∀ s' rest, parse cfg s b = some (.more, s', rest) → FitsAll cfg s' r
  | s, .gap n :: r => ((parseMissing cfg s n).1 ≠ .no → Fits cfg s n) ∧ ((parseMissing cfg s n).1 = .more → FitsAll cfg (parseMissing cfg s n).2 r)

end Verif.Http
