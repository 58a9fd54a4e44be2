import Verif.Model.Spdy
/-
Model of `spdy::decompressor` with the calls it makes to zlib (/repo/src/spdy_decompressor.cpp,
/repo/include/pion/spdy/decompressor.hpp). zlib itself is a parameter. `decompress`, which chooses the stream, is in
Model/Spdy. Simplification: memory for the streams is available, so that the constructor succeeds (42-79).
-/
namespace Verif.Spdy

/-- `SPDY_ZLIB_DICTIONARY` (/repo/src/spdy_decompressor.cpp:24-37); `sizeof` counts the zero at its end. -/
def dictionary : Bytes :=
  b! "optionsgetheadpostputdeletetraceacceptaccept-charsetaccept-encodingaccept-" ++
  b! "languageauthorizationexpectfromhostif-modified-sinceif-matchif-none-matchi" ++
  b! "f-rangeif-unmodifiedsincemax-forwardsproxy-authorizationrangerefererteuser" ++
  b! "-agent10010120020120220320420520630030130230330430530630740040140240340440" ++
  b! "5406407408409410411412413414415416417500501502503504505accept-rangesageeta" ++
  b! "glocationproxy-authenticatepublicretry-afterservervarywarningwww-authentic" ++
  b! "ateallowcontent-basecontent-encodingcache-controlconnectiondatetrailertran" ++
  b! "sfer-encodingupgradeviawarningcontent-languagecontent-lengthcontent-locati" ++
  b! "oncontent-md5content-rangecontent-typeetagexpireslast-modifiedset-cookieMo" ++
  b! "ndayTuesdayWednesdayThursdayFridaySaturdaySundayJanFebMarAprMayJunJulAugSe" ++
  b! "pOctNovDecchunkedtext/htmlimage/pngimage/jpgimage/gifapplication/xmlapplic" ++
  b! "ation/xhtmltext/plainpublicmax-agecharset=iso-8859-1utf-8gzipdeflateHTTP/1" ++
  b! ".1statusversionurl" ++ [0]

/-- `adler32` of zlib, started with its initial value 1 (RFC 1950, section 9). -/
def adler32 (bs : Bytes) : Nat :=
  let s := bs.foldl (fun s x => ((s.1 + x.toNat) % 65521, (s.2 + s.1 + x.toNat) % 65521)) (1, 0)
  s.2 * 65536 + s.1

/-- `m_dictionary_id` (/repo/src/spdy_decompressor.cpp:72-76). -/
def dictionaryId : Nat := adler32 dictionary

/-- What zlib's functions return: `Z_OK`, `Z_NEED_DICT`, or something else. -/
inductive Code where
  | ok | needDict | other
  deriving Repr, DecidableEq

/-- What `inflate` leaves: the state of the stream, how much of the input is used (`avail_in` is the rest), what was
    written, the code, and the checksum `adler` of the dictionary that is needed. -/
structure Inflated (Z : Type) where
  state : Z
  used : Nat
  out : Bytes
  code : Code
  adler : Nat := 0

/-- zlib: `inflate` with input and room for output, and `inflateSetDictionary`. -/
structure Inflate (Z : Type) where
  run : Z → Bytes → Nat → Inflated Z
  setDictionary : Z → Bytes → Z × Code

/-- `spdy_decompress_header` (/repo/src/spdy_decompressor.cpp:129-177). -/
def decompressHeader {Z : Type} (zl : Inflate Z) : Zlib Z := fun z input =>
  let r := zl.run z input maxHeader
  if r.code = .needDict then
    if r.adler ≠ dictionaryId then (r.state, r.out, false)
    else
      let (z2, c) := zl.setDictionary r.state dictionary
      if c = .ok then
        let q := zl.run z2 (input.drop r.used) (maxHeader - r.out.length)
        (q.state, r.out ++ q.out, decide (q.code = .ok) && r.used + q.used == input.length)
      else (z2, r.out, false)
  else (r.state, r.out, decide (r.code = .ok) && r.used == input.length)

/-- A new decompressor (/repo/src/spdy_decompressor.cpp:42-79): `z` is the state that `inflateInit2` makes. -/
def newDec {Z : Type} (z : Z) : Dec Z := { request := z, response := z }

end Verif.Spdy
