import Verif.Base
/-
Model of the functions that compare files (/repo/include/pion/test/unit_test.hpp:250-348), and of the parts of `std::ifstream`
they use.

Simplifications: a file is its bytes; files that cannot be opened (`BOOST_REQUIRE` ends the test) and read errors are not
modelled; `std::list::sort` is taken to be a stable sort, with the order of `std::string`; `boost::trim` is that of the "C" locale.
-/
namespace Verif.TestFiles
open Verif

/-- A stream opened in binary mode: what has not been read yet; `ended` is that `eofbit` or `failbit` is set. -/
structure Stream where
  rest : Bytes
  ended : Bool := false
  deriving Repr, DecidableEq

/-- What an input function leaves: whether the stream may be used as a condition (`!fail()`), what is in the buffer,
    `gcount()`, and the stream. -/
structure Got where
  ok : Bool
  data : Bytes
  count : Nat
  next : Stream
  deriving Repr, DecidableEq

/-- `istream::read` (/repo/include/pion/test/unit_test.hpp:329,330,335). -/
def read (n : Nat) (s : Stream) : Got :=
  if s.ended then ⟨false, [], 0, s⟩
  else if n ≤ s.rest.length then ⟨true, s.rest.take n, n, { rest := s.rest.drop n }⟩
  else ⟨false, s.rest, s.rest.length, { rest := [], ended := true }⟩

/-- The loop of `istream::getline` with room for `room` more characters, `got` being stored already. The end of the file is
    looked for first, then the end of the line, then whether the buffer is full. -/
def lineLoop : Nat → Bytes → Bytes → Got
  | _, got, [] => ⟨!got.isEmpty, got, got.length, { rest := [], ended := true }⟩
  | room, got, c :: r =>
    if c = 0x0a then ⟨true, got, got.length + 1, { rest := r }⟩
    else match room with
      | 0 => ⟨false, got, got.length, { rest := c :: r, ended := true }⟩
      | room + 1 => lineLoop room (got ++ [c]) r

/-- `istream::getline(buf, size)` (/repo/include/pion/test/unit_test.hpp:316,317,326). -/
def getline (size : Nat) (s : Stream) : Got := if s.ended then ⟨false, [], 0, s⟩ else lineLoop (size - 1) [] s.rest

/-- What C functions see of a buffer. -/
def cstr (b : Bytes) : Bytes := b.takeWhile (· != 0)

/-- `trim` (/repo/include/pion/test/unit_test.hpp:253-261). -/
def trim (b : Bytes) : Bytes := ((cstr b).reverse.dropWhile fun c => c = 0x0a || c = 0x0d).reverse

/-- `BUF_SIZE` (/repo/include/pion/test/unit_test.hpp:311). -/
def BUF_SIZE : Nat := 4096

theorem read_less {n : Nat} {s : Stream} (hn : 0 < n) (h : (read n s).ok = true) : (read n s).next.rest.length < s.rest.length := by
  unfold read at h ⊢
  split at h
  · cases h
  · rename_i hs
    rw [if_neg hs]
    split at h
    · rename_i hl
      rw [if_pos hl]
      simp only [List.length_drop]
      omega
    · cases h

theorem lineLoop_less (r : Bytes) : ∀ (room : Nat) (got : Bytes), (lineLoop room got r).ok = true →
    (lineLoop room got r).next.rest.length < r.length + (if got = [] then 0 else 1) := by
  induction r with
  | nil =>
    intro room got h
    cases got with
    | nil => simp [lineLoop] at h
    | cons => simp [lineLoop]
  | cons c r ih =>
    intro room got h
    unfold lineLoop at h ⊢
    split
    · simp only [List.length_cons]
      omega
    · rename_i hc
      rw [if_neg hc] at h
      cases room with
      | zero => cases h
      | succ room =>
        have := ih room (got ++ [c]) h
        simp only [List.append_eq_nil_iff, List.cons_ne_nil, and_false, if_false] at this
        simp only [List.length_cons]
        omega

theorem getline_less {n : Nat} {s : Stream} (h : (getline n s).ok = true) : (getline n s).next.rest.length < s.rest.length := by
  unfold getline at h ⊢
  split at h
  · cases h
  · rename_i hs
    rw [if_neg hs]
    simpa using lineLoop_less s.rest (n - 1) [] h

/-- The end of `check_files_exact_match` (/repo/include/pion/test/unit_test.hpp:326-327, 335-341), given what was read last. -/
def finish (a b : Got) : Bool := if b.ok then false else if a.count != b.count then false else a.data.take a.count == b.data.take a.count

/-- The loop over lines (/repo/include/pion/test/unit_test.hpp:316-327). -/
def linesLoop (a b : Stream) : Bool :=
  if _h : (getline BUF_SIZE a).ok = true then
    if (getline BUF_SIZE b).ok then
      if trim (getline BUF_SIZE a).data = trim (getline BUF_SIZE b).data then linesLoop (getline BUF_SIZE a).next (getline BUF_SIZE b).next
      else false
    else false
  else finish (getline BUF_SIZE a) (getline BUF_SIZE b)
termination_by a.rest.length
decreasing_by exact getline_less _h

/-- The loop over blocks (/repo/include/pion/test/unit_test.hpp:329-336). -/
def blocksLoop (a b : Stream) : Bool :=
  if _h : (read BUF_SIZE a).ok = true then
    if (read BUF_SIZE b).ok then
      if (read BUF_SIZE a).data = (read BUF_SIZE b).data then blocksLoop (read BUF_SIZE a).next (read BUF_SIZE b).next else false
    else false
  else finish (read BUF_SIZE a) (read BUF_SIZE b)
termination_by a.rest.length
decreasing_by exact read_less (by decide) _h

/-- `check_files_exact_match` (/repo/include/pion/test/unit_test.hpp:302-348). -/
def checkFilesExactMatch (a b : Bytes) (ignoreLineEndings : Bool) : Bool :=
  if ignoreLineEndings then linesLoop { rest := a } { rest := b } else blocksLoop { rest := a } { rest := b }

/-- `std::getline` into a string (/repo/include/pion/test/unit_test.hpp:274): as above without a limit. -/
def getlineString (s : Stream) : Got := if s.ended then ⟨false, [], 0, s⟩ else lineLoop s.rest.length [] s.rest

theorem getlineString_less {s : Stream} (h : (getlineString s).ok = true) : (getlineString s).next.rest.length < s.rest.length := by
  unfold getlineString at h ⊢
  split at h
  · cases h
  · rename_i hs
    rw [if_neg hs]
    simpa using lineLoop_less s.rest s.rest.length [] h

/-- `boost::trim`. -/
def isSpace (c : UInt8) : Bool := c = 0x20 || (0x09 ≤ c && c ≤ 0x0d)
def boostTrim (b : Bytes) : Bytes := ((b.dropWhile isSpace).reverse.dropWhile isSpace).reverse

/-- `read_lines_from_file` (/repo/include/pion/test/unit_test.hpp:265-284). -/
def readLines (s : Stream) : List Bytes :=
  if _h : (getlineString s).ok = true then
    let line := boostTrim (getlineString s).data
    let more := readLines (getlineString s).next
    if !line.isEmpty && line.head? != some (c! "#") then line :: more else more
  else []
termination_by s.rest.length
decreasing_by exact getlineString_less _h

/-- `check_files_match` (/repo/include/pion/test/unit_test.hpp:288-300). -/
def checkFilesMatch (a b : Bytes) : Bool :=
  (readLines { rest := a }).mergeSort (fun x y => decide (x ≤ y)) == (readLines { rest := b }).mergeSort (fun x y => decide (x ≤ y))

end Verif.TestFiles
