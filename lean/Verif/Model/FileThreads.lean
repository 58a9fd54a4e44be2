import Verif.Base
/-
Model of `FileService` used by several threads at once, while the file is changed (/repo/services/FileService.cpp,
/repo/services/FileService.hpp): the requests GET and HEAD for one file.

Each request is split at its accesses to the cache and to the file system. `m_cache_mutex` is held over several steps
(/repo/services/FileService.cpp:232-335), during which the file may change. The content of a cached file is a
`boost::shared_array`, which several threads may read at once: it is a number of a buffer here.

Simplifications: one file, hence one entry of the cache; the entries of other files do not matter to it. The file is a
list of versions, each there at one time, `none` if there is no file. `ifstream::read` may take each byte from any version
between the opening of the file and the end of the read; so both a file that is written in place and one that is replaced
are covered. Times are compared instead of their texts (`HttpDate` has that different times have different texts), and
0 is no time of a file. Memory is sequentially consistent. Whether requests are sent whole or the connection fails is left
out (`Model/FileSender`). Calls have numbers, each used once; any number of calls may run at once.
-/
namespace Verif.FileThreads

/-- A version of the file. -/
structure Version where
  content : Bytes
  time : Nat
  deriving Repr, DecidableEq

/-- The options (/repo/services/FileService.hpp:338-390). -/
structure Cfg where
  cache : Nat := 1
  scan : Nat := 0
  maxCache : Nat := 0
  maxChunk : Nat := 0
  deriving Repr, DecidableEq

/-- `DiskFile` (/repo/services/FileService.hpp:38-124): size, time of modification (0: none yet), buffer. -/
structure Disk where
  size : Nat := 0
  time : Nat := 0
  buf : Option Nat := none
  deriving Repr, DecidableEq

/-- A request: HEAD or GET, and the time in its If-Modified-Since. -/
structure Req where
  head : Bool := false
  since : Option Nat := none
  deriving Repr, DecidableEq

/-- What a request is answered with: the file, with the length that the answer is sent with, the Last-Modified time and
    the bytes sent (`none` is a byte of memory that was not initialised); 304; the headers; 404; an exception, for which
    the server answers 500; nothing, since the file cannot be read while it is sent (/repo/services/FileService.cpp:877,
    909); or reading beyond a buffer. -/
inductive Answer where
  | file (size time : Nat) (body : List (Option UInt8))
  | notModified (time : Nat)
  | headers (time : Nat)
  | notFound
  | error
  | gaveUp
  | overrun
  deriving Repr, DecidableEq

/-- Which `DiskFile` is updated: the entry, when it is used for the first time (/repo/services/FileService.cpp:293-304);
    the entry, by `checkUpdated` (306-309); `response_file` of a call that found an entry with the cache disabled
    (257-264); `response_file` of a call that found none (349-367). -/
inductive Use where
  | first | check | plain | own
  deriving Repr, DecidableEq

/-- Where a call is. -/
inductive Pc where
  /-- before locking `m_cache_mutex` (/repo/services/FileService.cpp:229-233) -/
  | lookup
  /-- before `file_size` (/repo/services/FileService.cpp:764, 792) -/
  | size (u : Use)
  /-- before `last_write_time` (/repo/services/FileService.cpp:765, 793); the size is known -/
  | time (u : Use) (n : Nat)
  /-- before allocating the buffer and opening the file (/repo/services/FileService.cpp:772-776) -/
  | read (u : Use)
  /-- reading (/repo/services/FileService.cpp:779); the version when the file was opened -/
  | fill (u : Use) (opened : Nat)
  /-- before copying the entry, with `cache_was_updated` (/repo/services/FileService.cpp:313-330) -/
  | copy (updated : Bool)
  /-- before `exists` (/repo/services/FileService.cpp:340) -/
  | exist
  /-- before locking `m_cache_mutex` to insert the entry (/repo/services/FileService.cpp:372-373) -/
  | insert
  /-- in `DiskFileSender`: the bytes sent so far; if the file is read from disk, the version when it was opened -/
  | send (sent : List (Option UInt8)) (opened : Option Nat)
  | done (a : Answer)
  deriving Repr, DecidableEq

/-- A call of the service. `file` is `response_file`, later `m_disk_file` of the sender. `came` is not in the code: it is
    the number of the version when the call began. -/
structure Call where
  req : Req
  came : Nat
  file : Disk := {}
  pc : Pc := .lookup
  deriving Repr, DecidableEq

/-- The versions of the file up to now; the buffers; the entry of the cache; the holder of `m_cache_mutex`. -/
structure Shared where
  hist : List (Option Version)
  heap : List (List (Option UInt8)) := []
  entry : Option Disk := none
  lock : Option Nat := none

structure St where
  sh : Shared
  calls : Nat → Option Call := fun _ => none

/-- The file as it is now. -/
def Shared.now (sh : Shared) : Option Version := sh.hist.getLast?.join

/-- The number of the present version. -/
def Shared.index (sh : Shared) : Nat := sh.hist.length - 1

/-- Whether the entry is kept in memory (/repo/services/FileService.cpp:298, 365). -/
def Cfg.fits (cfg : Cfg) (n : Nat) : Prop := cfg.maxCache = 0 ∨ n ≤ cfg.maxCache

instance (cfg : Cfg) (n : Nat) : Decidable (cfg.fits n) := inferInstanceAs (Decidable (_ ∨ _))

/-- The byte at `p` is taken from version `pick p`, which is one since the file was opened. -/
def validPick (hist : List (Option Version)) (opened pos n : Nat) (pick : Nat → Nat) : Bool :=
  (List.range' pos n).all fun p => decide (opened ≤ pick p) && decide (pick p < hist.length)

/-- The byte at `p` of version `k`. -/
def byteAt (hist : List (Option Version)) (k p : Nat) : Option UInt8 := hist[k]?.join.bind (·.content[p]?)

/-- `ifstream::read` of `n` bytes from position `pos`; `none` if one is beyond the end. -/
def readBytes (hist : List (Option Version)) (pos n : Nat) (pick : Nat → Nat) : Option Bytes :=
  (List.range' pos n).mapM fun p => byteAt hist (pick p) p

/-- How a request with an up-to-date `response_file` goes on (/repo/services/FileService.cpp:266-279, 315-322, 356-362);
    `next` is for GET. -/
def respond (req : Req) (d : Disk) (next : Pc) : Pc :=
  if req.since = some d.time then .done (.notModified d.time)
  else if req.head then .done (.headers d.time)
  else next

/-- Leaving the section (/repo/services/FileService.cpp:336). -/
def Shared.unlock (sh : Shared) : Shared := { sh with lock := none }

/-- An exception in `update`, `read` or `checkUpdated`; the mutex is released if it is held. -/
def throw (u : Use) (sh : Shared) (c : Call) : Shared × Call :=
  (if u = .own then sh else sh.unlock, { c with pc := .done .error })

/-- The section that looks for the entry, up to the first access to the file (/repo/services/FileService.cpp:229-336). -/
def lookUp (cfg : Cfg) (i : Nat) (sh : Shared) (c : Call) : Option (Shared × Call) :=
  if cfg.cache = 0 ∧ cfg.scan = 0 then some (sh, { c with pc := .exist })
  else if sh.lock.isSome then none
  else match sh.entry with
    | none => some (sh, { c with pc := if cfg.scan = 1 ∨ cfg.scan = 3 then .done .notFound else .exist })
    | some e =>
      let pc : Pc :=
        if cfg.cache = 0 then .size .plain
        else if e.time = 0 then .size .first
        else if cfg.cache = 1 then .size .check
        else .copy false
      some ({ sh with lock := some i }, { c with pc := pc })

/-- After `file_size`; `update` stores it at once (/repo/services/FileService.cpp:764), `checkUpdated` does not (792). -/
def sized (u : Use) (n : Nat) (sh : Shared) (c : Call) : Shared × Call :=
  (match u with
    | .first => { sh with entry := sh.entry.map fun e => { e with size := n } }
    | _ => sh,
   { c with pc := .time u n })

/-- After `last_write_time` (/repo/services/FileService.cpp:264-279, 297-303, 306-309, 353-370, 765-766, 795-806). -/
def timed (cfg : Cfg) (u : Use) (n t : Nat) (sh : Shared) (c : Call) : Shared × Call :=
  match u with
  | .first =>
    if cfg.fits n then ({ sh with entry := sh.entry.map fun e => { e with time := t } }, { c with pc := .read .first })
    else ({ sh with entry := sh.entry.map fun e => { e with time := t, buf := none } }, { c with pc := .copy true })
  | .check =>
    if t = (sh.entry.getD {}).time ∧ n = (sh.entry.getD {}).size then (sh, { c with pc := .copy false })
    else ({ sh with entry := sh.entry.map fun e => { e with size := n, time := t } }, { c with pc := .read .check })
  | .plain =>
    let d : Disk := { size := n, time := t }
    (sh.unlock, { c with file := d, pc := respond c.req d (.send [] none) })
  | .own =>
    let d : Disk := { size := n, time := t }
    let next : Pc := if cfg.cache ≠ 0 then (if cfg.fits n then .read .own else .insert) else .send [] none
    (sh, { c with file := d, pc := respond c.req d next })

/-- The file that is read into memory. -/
def target (u : Use) (sh : Shared) (c : Call) : Disk := if u = .own then c.file else sh.entry.getD {}

/-- The beginning of `read` (/repo/services/FileService.cpp:772-776): a new buffer, not initialised, and the file opened. -/
def opened (u : Use) (sh : Shared) (c : Call) : Shared × Call :=
  let b := sh.heap.length
  let sh' := { sh with heap := sh.heap ++ [List.replicate (target u sh c).size none] }
  let r : Shared × Call :=
    if u = .own then (sh', { c with file := { c.file with buf := some b } })
    else ({ sh' with entry := sh.entry.map fun e => { e with buf := some b } }, c)
  match sh.now with
  | none => throw u r.1 r.2
  | some _ => (r.1, { r.2 with pc := .fill u sh.index })

/-- The end of `read` (/repo/services/FileService.cpp:779-787): the bytes are in the buffer, or an exception. -/
def filled (u : Use) (pick : Nat → Nat) (sh : Shared) (c : Call) : Shared × Call :=
  match readBytes sh.hist 0 (target u sh c).size pick with
  | none => throw u sh c
  | some bs =>
    ({ sh with heap := sh.heap.set ((target u sh c).buf.getD 0) (bs.map some) },
     { c with pc := if u = .own then .insert else .copy true })

/-- The end of the section (/repo/services/FileService.cpp:315-336). -/
def copied (cfg : Cfg) (updated : Bool) (sh : Shared) (c : Call) : Shared × Call :=
  let e := sh.entry.getD {}
  ({ sh with lock := none, entry := sh.entry.map fun e =>
      if updated = true ∧ 0 < cfg.maxCache ∧ cfg.maxCache < e.size then { e with buf := none } else e },
   { c with file := e, pc := respond c.req e (.send [] none) })

/-- `send` of the sender, up to the end of the write (/repo/services/FileService.cpp:842-936, 954-964). -/
def sending (cfg : Cfg) (pick : Nat → Nat) (sh : Shared) (c : Call) (sent : List (Option UInt8)) (op : Option Nat) :
    Option (Shared × Call) :=
  if c.file.size ≤ sent.length then some (sh, { c with pc := .done (.file c.file.size c.file.time sent) })
  else
    let left := c.file.size - sent.length
    let n := if 0 < cfg.maxChunk ∧ cfg.maxChunk < left then cfg.maxChunk else left
    match c.file.buf with
    | some b =>
      let buf := sh.heap.getD b []
      if buf.length < sent.length + n then some (sh, { c with pc := .done .overrun })
      else some (sh, { c with pc := .send (sent ++ (buf.drop sent.length).take n) none })
    | none =>
      match op with
      | none => match sh.now with
        | none => some (sh, { c with pc := .done .gaveUp })
        | some _ => some (sh, { c with pc := .send sent (some sh.index) })
      | some o =>
        if validPick sh.hist o sent.length n pick then
          match readBytes sh.hist sent.length n pick with
          | none => some (sh, { c with pc := .done .gaveUp })
          | some bs => some (sh, { c with pc := .send (sent ++ bs.map some) (some o) })
        else none

/-- The next step of call `i`; `none`: it waits for `m_cache_mutex`, it is over, or `pick` is impossible. -/
def own (cfg : Cfg) (i : Nat) (pick : Nat → Nat) (sh : Shared) (c : Call) : Option (Shared × Call) :=
  match c.pc with
  | .lookup => lookUp cfg i sh c
  | .size u => match sh.now with
    | none => some (throw u sh c)
    | some v => some (sized u v.content.length sh c)
  | .time u n => match sh.now with
    | none => some (throw u sh c)
    | some v => some (timed cfg u n v.time sh c)
  | .read u => some (opened u sh c)
  | .fill u o => if validPick sh.hist o 0 (target u sh c).size pick then some (filled u pick sh c) else none
  | .copy updated => some (copied cfg updated sh c)
  | .exist => match sh.now with
    | none => some (sh, { c with pc := .done .notFound })
    | some _ => some (sh, { c with pc := .size .own })
  | .insert =>
    if sh.lock.isSome then none
    else some ({ sh with entry := some (sh.entry.getD c.file) }, { c with pc := .send [] none })
  | .send sent op => sending cfg pick sh c sent op
  | .done _ => none

/-- An error that does not come from the length of the file: there is no memory for the buffer, or the file cannot be
    opened or read. -/
def failing (sh : Shared) (c : Call) : Option (Shared × Call) :=
  match c.pc with
  | .read u => some (throw u sh c)
  | .fill u _ => some (throw u sh c)
  | _ => none

/-- What can happen: a request comes; a call makes a step; it fails; the file is changed, made or removed; the service is
    stopped, which empties the cache (/repo/services/FileService.cpp:615-621). -/
inductive Act where
  | call (i : Nat) (req : Req)
  | step (i : Nat) (pick : Nat → Nat)
  | fail (i : Nat)
  | change (v : Option Version)
  | clear

def St.set (s : St) (i : Nat) (r : Shared × Call) : St :=
  { sh := r.1, calls := fun k => if k = i then some r.2 else s.calls k }

def St.step (cfg : Cfg) (s : St) : Act → Option St
  | .call i req => match s.calls i with
    | none => some (s.set i (s.sh, { req := req, came := s.sh.index }))
    | some _ => none
  | .step i pick => match s.calls i with
    | none => none
    | some c => (own cfg i pick s.sh c).map (s.set i)
  | .fail i => match s.calls i with
    | none => none
    | some c => (failing s.sh c).map (s.set i)
  | .change v => some { s with sh := { s.sh with hist := s.sh.hist ++ [v] } }
  | .clear => if s.sh.lock.isSome then none else some { s with sh := { s.sh with entry := none } }

/-- `start` (/repo/services/FileService.cpp:592-613) changes the setting. -/
def started (cfg : Cfg) : Cfg := if cfg.cache = 0 ∧ 1 < cfg.scan then { cfg with cache := 1 } else cfg

/-- The entry that `start` makes, and its buffer (/repo/services/FileService.cpp:601-612, 664-710): a placeholder if
    `scan` is 1. Simplified: the file does not change while the directory is scanned, and can be read. -/
def scanned (cfg : Cfg) (v : Option Version) : Shared :=
  match v with
  | none => { hist := [v] }
  | some f =>
    if cfg.scan = 0 then { hist := [v] }
    else if cfg.scan = 1 then { hist := [v], entry := some {} }
    else if cfg.fits f.content.length then
      { hist := [v], heap := [f.content.map some], entry := some { size := f.content.length, time := f.time, buf := some 0 } }
    else { hist := [v], entry := some { size := f.content.length, time := f.time } }

/-- The state after some actions of a service that was started when the file was `v`; `none`: they are impossible in this
    order. -/
def run (cfg : Cfg) (v : Option Version) (tr : List Act) : Option St :=
  tr.foldlM (St.step (started cfg)) { sh := scanned cfg v }

end Verif.FileThreads
