import Verif.Spec.HttpGrammar
/-
Where a message ends: the texts that `http::parser` takes for the body of a message, given its head.
-/
namespace Verif.Http.Text

/-- The number written with hexadecimal digits. -/
def hexValue (d : Bytes) : Nat := d.foldl (fun a c => 16 * a + (hexVal? c).getD 0) 0

/-- What may follow the digits of a size: blanks, or a semicolon and any text without CR. -/
inductive SizeTail : Bytes → Prop
  | blanks {x : Bytes} : (∀ c ∈ x, isBlank c = true) → SizeTail x
  | ext {x : Bytes} : CR ∉ x → SizeTail (b! ";" ++ x)

/-- The line with the size of a chunk; blanks and line ends before it are ignored, and sizes are at most 2^63 - 1. -/
inductive SizeLine : Nat → Bytes → Prop
  | mk {pad d x : Bytes} : (∀ c ∈ pad, isBlank c = true ∨ c = CR ∨ c = LF) → d ≠ [] → (∀ c ∈ d, isHexDigit c = true) →
      SizeTail x → SizeLine (min (hexValue d) (2 ^ 63 - 1)) (pad ++ d ++ x ++ [CR, LF])

/-- Chunks with the data `ds`. -/
inductive Chunks : List Bytes → Bytes → Prop
  | nil : Chunks [] []
  | snoc {ds : List Bytes} {t line d : Bytes} : Chunks ds t → d ≠ [] → SizeLine d.length line →
      Chunks (ds ++ [d]) (t ++ line ++ d ++ [CR, LF])

/-- What follows the last chunk: an empty line, or header lines up to an empty line, of which the first begins as if a line
    end came before. With a payload handler the body is over before them. -/
inductive ChunksEnd (handler old : Bool) : Dict → Bytes → Bytes → Prop
  | empty {rest : Bytes} : ChunksEnd handler old [] [CR, LF] rest
  | trailers {hs : Dict} {c : UInt8} {u rest : Bytes} : handler = false → c ≠ CR → Lines old hs ([LF, CR] ++ c :: u) rest →
      ChunksEnd handler old hs (c :: u) rest
  | ignored {c : UInt8} {rest : Bytes} : handler = true → c ≠ CR → ChunksEnd handler old [] [] (c :: rest)

/-- A chunked body before `rest`: the data of its chunks and its trailers. -/
inductive Chunked (handler old : Bool) : List Bytes → Dict → Bytes → Bytes → Prop
  | mk {ds : List Bytes} {hs : Dict} {t line e rest : Bytes} : Chunks ds t → SizeLine 0 line →
      ChunksEnd handler old hs e rest → Chunked handler old ds hs (t ++ line ++ e) rest

/-- How the message is read. -/
structure Reading where
  /-- the order of the headers with the same name -/
  ord : Dict.Order
  /-- the method of the request that a response answers -/
  rm : Bytes
  /-- there is a payload handler -/
  handler : Bool
  /-- the maximum length of a content that is kept -/
  max : Nat

/-- After the head with the first line `h` and the headers `hs`, the body `b` before `rest`, with the content `data` and the
    headers `tr` in its trailers.
    Chunks go before everything else, then the responses without body, then Content-Length. -/
inductive Body (r : Reading) (h : Head) (hs : Dict) : Bytes → Dict → Bytes → Bytes → Prop
  | none {rest : Bytes} : ¬ AnnouncesChunks r.ord hs →
      (h.Bodyless r.rm ∨ (h.isRequest = true ∧ hs.find? r.ord (b! "Content-Length") = none)) → Body r h hs [] [] [] rest
  | length {b v rest : Bytes} : ¬ AnnouncesChunks r.ord hs → ¬ h.Bodyless r.rm →
      hs.find? r.ord (b! "Content-Length") = some v → LengthValue b.length v → Body r h hs b [] b rest
  | chunks {ds : List Bytes} {tr : Dict} {b rest : Bytes} : AnnouncesChunks r.ord hs →
      Chunked r.handler (old h) ds tr b rest → (r.handler = false → ds.flatten.length ≤ r.max) →
      Body r h hs ds.flatten tr b rest

/-- After this head the body is everything up to the end of the connection: a response that may have a body and announces
    neither chunks nor a length. -/
structure UntilClose (r : Reading) (h : Head) (hs : Dict) : Prop where
  response : h.isRequest = false
  noChunks : ¬ AnnouncesChunks r.ord hs
  hasBody : ¬ h.Bodyless r.rm
  noLength : hs.find? r.ord (b! "Content-Length") = none

/-- A complete message before `rest`. -/
def Message (r : Reading) (h : Head) (hs : Dict) (data : Bytes) (tr : Dict) (t rest : Bytes) : Prop :=
  ∃ a b, t = a ++ b ∧ MessageHead h hs a (b ++ rest) ∧ Body r h hs data tr b rest

/-- The parameters in the query string of the first line, added to `d`. -/
def lineQueries (d : Dict) : Head → Dict
  | .request _ _ q _ _ => if q.isEmpty then d else (Query.parseUrlEncoded d q).2
  | .response .. => d

end Verif.Http.Text
