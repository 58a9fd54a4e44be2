import Verif.Model.Path
import Verif.Spec.Path
import Verif.Model.UrlCodec
import Verif.Model.XmlEncode
/-
Model of `FileService` and `DiskFile` (/repo/services/FileService.cpp, /repo/services/FileService.hpp). The file system
is a function from places to what is there; it has no symbolic links. A request is handled in one step with respect to
the file system and to other requests, apart from sending the file, which `Model/FileSender` describes.

Simplified: a path is looked up by its place. The operating system looks it up name by name and finds nothing if it goes
through something that is not a directory, as "file/." does; `Props/FileLookup` has what follows from that.

Not modelled here: logging; the headers and pages (`Model/FileAnswers`); `check_cygwin_path`.
-/
namespace Verif.FileService
open Verif.Path Verif.Spec.Path Verif.UrlCodec Verif.XmlEncode

/-- A regular file. `readable` and `writable` are the permissions the server has. -/
structure File where
  content : Bytes
  mtime : Int
  readable : Bool := true
  writable : Bool := true
  deriving Repr, DecidableEq

/-- `writable`: files can be made and removed in it. -/
inductive Node where
  | dir (writable : Bool)
  | file (f : File)
  deriving Repr, DecidableEq

abbrev Fs := Place → Option Node

def Fs.set (fs : Fs) (p : Place) (n : Option Node) : Fs := fun q => if q = p then n else fs q

/-- The configuration (/repo/services/FileService.hpp:338-390). `date` is `types::get_date_string`
    (/repo/src/http_types.cpp:98-116), `cwd` the current directory of the process. -/
structure Cfg where
  resource : Bytes := []
  directory : Bytes := []
  file : Bytes := []
  cache : Nat := 1
  scan : Nat := 0
  /-- there is no option to set it -/
  maxCache : Nat := 0
  maxChunk : Nat := 0
  writable : Bool := false
  date : Int → Bytes
  cwd : Place := []

/-- Outcomes of `set_option`; `thrown` is an exception, with what has changed up to then. -/
inductive SetOut where
  | ok (c : Cfg)
  | thrown (c : Cfg)

/-- `set_option` (/repo/services/FileService.cpp:53-115). `number` is `lexical_cast<unsigned long>`. -/
def setOption (number : Bytes → Option Nat) (fs : Fs) (c : Cfg) (name value : Bytes) : SetOut :=
  if name = b! "directory" then
    let c := { c with directory := normalize value }
    match fs (resolve c.cwd c.directory) with
    | some (.dir _) => if c.directory = [] then .thrown c else .ok c
    | _ => .thrown c
  else if name = b! "file" then
    let c := { c with file := value }
    match fs (resolve c.cwd c.file) with
    | some (.file _) => if c.file = [] then .thrown c else .ok c
    | _ => .thrown c
  else if name = b! "cache" then
    if value = b! "0" then .ok { c with cache := 0 }
    else if value = b! "1" then .ok { c with cache := 1 }
    else if value = b! "2" then .ok { c with cache := 2 }
    else .thrown c
  else if name = b! "scan" then
    if value = b! "0" then .ok { c with scan := 0 }
    else if value = b! "1" then .ok { c with scan := 1 }
    else if value = b! "2" then .ok { c with scan := 2 }
    else if value = b! "3" then .ok { c with scan := 3 }
    else .thrown c
  else if name = b! "max_chunk_size" then
    match number value with
    | some n => .ok { c with maxChunk := n }
    | none => .thrown c
  else if name = b! "writable" then
    if value = b! "true" then .ok { c with writable := true }
    else if value = b! "false" then .ok { c with writable := false }
    else .thrown c
  else .thrown c

/-- `DiskFile` (/repo/services/FileService.hpp:38-124). In the content buffer `none` is a byte that has not been
    written. -/
structure DiskFile where
  path : Bytes := []
  content : Option (List (Option UInt8)) := none
  size : Nat := 0
  mtime : Int := 0
  lastModified : Bytes := []
  deriving Repr, DecidableEq

/-- `update` (/repo/services/FileService.cpp:761-767); `false` is an exception. -/
def DiskFile.update (c : Cfg) (fs : Fs) (d : DiskFile) : DiskFile × Bool :=
  match fs (resolve c.cwd d.path) with
  | some (.file f) => ({ d with size := f.content.length, mtime := f.mtime, lastModified := c.date f.mtime }, true)
  | _ => (d, false)

/-- `read` (/repo/services/FileService.cpp:769-787); `false` is an exception. The buffer is new, not initialised. -/
def DiskFile.read (c : Cfg) (fs : Fs) (d : DiskFile) : DiskFile × Bool :=
  match fs (resolve c.cwd d.path) with
  | some (.file f) =>
    if f.readable then
      let got := (f.content.take d.size).map some
      ({ d with content := some (got ++ List.replicate (d.size - got.length) none) }, decide (d.size ≤ f.content.length))
    else ({ d with content := some (List.replicate d.size none) }, false)
  | _ => ({ d with content := some (List.replicate d.size none) }, false)

/-- `checkUpdated` (/repo/services/FileService.cpp:789-811): the file, whether there was no exception, and the result. -/
def DiskFile.checkUpdated (c : Cfg) (fs : Fs) (d : DiskFile) : DiskFile × Bool × Bool :=
  match fs (resolve c.cwd d.path) with
  | some (.file f) =>
    if f.mtime = d.mtime ∧ f.content.length = d.size then (d, true, false)
    else
      let d := { d with size := f.content.length, mtime := f.mtime, lastModified := c.date f.mtime }
      let (d, ok) := d.read c fs
      (d, ok, true)
  | _ => (d, false, false)

abbrev Cache := List (Bytes × DiskFile)

def Cache.find? (m : Cache) (k : Bytes) : Option DiskFile := (List.find? (fun e => e.1 = k) m).map (·.2)

/-- Assignment to the entry of a key that is present. -/
def Cache.put (m : Cache) (k : Bytes) (d : DiskFile) : Cache := m.map fun e => if e.1 = k then (k, d) else e

/-- `insert`: an entry that is present stays as it is. -/
def Cache.insert (m : Cache) (k : Bytes) (d : DiskFile) : Cache := if (m.find? k).isSome then m else m ++ [(k, d)]

structure Req where
  method : Bytes
  resource : Bytes
  ifModifiedSince : Bytes := []
  body : Bytes := []
  deriving Repr, DecidableEq

/-- What a request is answered with: a page with a status and the escaped text of the request in it; headers only, with
    the Last-Modified text; a file given to a `DiskFileSender`; or an exception, for which the server answers 500
    (/repo/src/http_server.cpp:120-143). -/
inductive Out where
  | page (status : Nat) (text : Bytes)
  | headers (status : Nat) (lastModified : Bytes)
  | file (d : DiskFile)
  | thrown
  deriving Repr, DecidableEq

/-- The service as it runs. -/
structure St where
  fs : Fs
  cache : Cache := []

/-- `xml_encode` of text of the request; its result is always defined (C07). -/
def escape (s : Bytes) : Bytes := (xmlEncode? s).getD []

/-- `get_relative_resource` (/repo/include/pion/http/plugin_service.hpp:71-79). -/
def relative (c : Cfg) (resource : Bytes) : Bytes :=
  if resource.length ≤ c.resource.length then [] else urlDecode (resource.drop (c.resource.length + 1))

/-- The file a request is for (/repo/services/FileService.cpp:120-157): none (404), one outside (403), or its path. -/
inductive Target where
  | none
  | outside
  | path (p : Bytes)
  deriving Repr, DecidableEq

def target (c : Cfg) (rel : Bytes) : Target :=
  if rel = [] then
    if c.file = [] then .none
    else if c.directory.isPrefixOf (normalize c.file) then .path (normalize c.file) else .outside
  else if c.directory = [] then .none
  else
    let p := normalize (append c.directory rel)
    if c.directory.isPrefixOf p then .path p else .outside

def isGet (m : Bytes) : Bool := m = b! "GET"
def isHead (m : Bytes) : Bool := m = b! "HEAD"

/-- 304 or 200, by comparing the texts (/repo/services/FileService.cpp:273-285, 316-322, 351-358). The file itself is
    sent for GET. -/
def answer (r : Req) (d : DiskFile) : Out :=
  if d.lastModified = r.ifModifiedSince then .headers 304 d.lastModified
  else if isHead r.method then .headers 200 d.lastModified
  else .file d

/-- GET and HEAD for an entry found while the cache is enabled (/repo/services/FileService.cpp:288-335). -/
def getCached (c : Cfg) (s : St) (r : Req) (rel : Bytes) (e : DiskFile) : Out × St :=
  let (e, ok, updated) :=
    if e.mtime = 0 then
      match e.update c s.fs with
      | (e, false) => (e, false, true)
      | (e, true) =>
        if c.maxCache = 0 ∨ e.size ≤ c.maxCache then
          let (e, ok) := e.read c s.fs
          (e, ok, true)
        else ({ e with content := none }, true, true)
    else if c.cache = 1 then e.checkUpdated c s.fs
    else (e, true, false)
  if ok then
    let kept := if updated ∧ 0 < c.maxCache ∧ c.maxCache < e.size then { e with content := none } else e
    (answer r e, { s with cache := s.cache.put rel kept })
  else (.thrown, { s with cache := s.cache.put rel e })

/-- GET and HEAD for a file that has no entry (/repo/services/FileService.cpp:338-377). -/
def getUncached (c : Cfg) (s : St) (r : Req) (rel path : Bytes) : Out × St :=
  match s.fs (resolve c.cwd path) with
  | none => (.page 404 (escape r.resource), s)
  | some _ =>
    match ({ path := path } : DiskFile).update c s.fs with
    | (_, false) => (.thrown, s)
    | (d, true) =>
      match answer r d with
      | .file d =>
        if c.cache ≠ 0 then
          if c.maxCache = 0 ∨ d.size ≤ c.maxCache then
            match d.read c s.fs with
            | (_, false) => (.thrown, s)
            | (d, true) => (.file d, { s with cache := s.cache.insert rel d })
          else (.file d, { s with cache := s.cache.insert rel d })
        else (.file d, s)
      | o => (o, s)

/-- GET and HEAD (/repo/services/FileService.cpp:213-414). -/
def get (c : Cfg) (s : St) (r : Req) (rel path : Bytes) : Out × St :=
  if 0 < c.cache ∨ 0 < c.scan then
    match s.cache.find? rel with
    | none => if c.scan = 1 ∨ c.scan = 3 then (.page 404 (escape r.resource), s) else getUncached c s r rel path
    | some e =>
      if c.cache = 0 then
        match ({ path := e.path } : DiskFile).update c s.fs with
        | (_, false) => (.thrown, s)
        | (d, true) => (answer r d, s)
      else getCached c s r rel e
  else getUncached c s r rel path

/-- Writing the request's content to the file (/repo/services/FileService.cpp:492-497): at the end for POST, instead of
    what is there for PUT. Failures of the stream are not looked at. `now` is the time of writing. -/
def write (fs : Fs) (p : Place) (post : Bool) (body : Bytes) (now : Int) : Fs :=
  match fs p with
  | some (.file f) =>
    if f.writable then
      fs.set p (some (.file { f with content := if post then f.content ++ body else body, mtime := now }))
    else fs
  | some (.dir _) => fs
  | none =>
    match fs p.dropLast with
    | some (.dir true) => fs.set p (some (.file { content := body, mtime := now }))
    | _ => fs

/-- POST and PUT on a writable service (/repo/services/FileService.cpp:441-514). `branch_path` of a normalised path is
    the path without its last name. -/
def putPost (c : Cfg) (s : St) (r : Req) (path : Bytes) (now : Int) : Out × St :=
  let p := resolve c.cwd path
  let there := (s.fs p).isSome
  if there = false ∧ (s.fs p.dropLast).isNone then (.page 404 (escape r.resource), s)
  else
    let fs := write s.fs p (r.method = b! "POST") r.body now
    if (fs p).isNone then (.page 500 (escape r.resource), { s with fs := fs })
    else (.page (if there then 204 else 201) (if there then [] else escape r.resource), { s with fs := fs })

/-- DELETE on a writable service (/repo/services/FileService.cpp:515-543). -/
def delete (c : Cfg) (s : St) (r : Req) (path : Bytes) : Out × St :=
  let p := resolve c.cwd path
  if (s.fs p).isNone then (.page 404 (escape r.resource), s)
  else
    match s.fs p.dropLast with
    | some (.dir true) => (.page 204 [], { s with fs := s.fs.set p none })
    | _ => (.page 500 (escape r.resource), s)

/-- `operator()` (/repo/services/FileService.cpp:117-566). -/
def handle (c : Cfg) (s : St) (r : Req) (now : Int) : Out × St :=
  let rel := relative c r.resource
  match target c rel with
  | .none => (.page 404 (escape r.resource), s)
  | .outside => (.page 403 (escape r.resource), s)
  | .path path =>
    match s.fs (resolve c.cwd path) with
    | some (.dir _) => (.page 403 (escape r.resource), s)
    | _ =>
      if isGet r.method ∨ isHead r.method then get c s r rel path
      else if r.method = b! "POST" ∨ r.method = b! "PUT" ∨ r.method = b! "DELETE" then
        if c.writable = false then (.page 405 (escape r.method), s)
        else if r.method = b! "POST" ∨ r.method = b! "PUT" then putPost c s r path now
        else delete c s r path
      else (.page 501 (escape r.method), s)

/-- `addCacheEntry` (/repo/services/FileService.cpp:659-714); `none` is an exception of `update`. -/
def addEntry (c : Cfg) (s : St) (rel path : Bytes) (placeholder : Bool) : Option St :=
  let d : DiskFile := { path := path }
  if placeholder then some { s with cache := s.cache.insert rel d }
  else
    match d.update c s.fs with
    | (_, false) => none
    | (d, true) =>
      if c.maxCache = 0 ∨ d.size ≤ c.maxCache then
        match d.read c s.fs with
        | (_, false) => some s
        | (d, true) => some { s with cache := s.cache.insert rel d }
      else some { s with cache := s.cache.insert rel d }

/-- `scanDirectory` (/repo/services/FileService.cpp:622-657) for the regular files found, in the order they are found:
    each given by its names from the directory on. The path of one is that of the directory with the names appended;
    what follows the path of the directory and one more character is the key. -/
def scanFiles (c : Cfg) (s : St) : List (List Bytes) → Option St
  | [] => some s
  | ns :: rest =>
    let path := ns.foldl append c.directory
    match addEntry c s (path.drop (c.directory.length + 1)) path (c.scan = 1) with
    | none => none
    | some s => scanFiles c s rest

/-- `start` (/repo/services/FileService.cpp:592-612); `none` is an exception. -/
def start (c : Cfg) (s : St) (files : List (List Bytes)) : Option (Cfg × St) :=
  if c.scan = 0 then some (c, s)
  else
    let c := if c.cache = 0 ∧ 1 < c.scan then { c with cache := 1 } else c
    let s? := if c.file = [] then some s else addEntry c s [] c.file (c.scan = 1)
    match s? with
    | none => none
    | some s => if c.directory = [] then some (c, s) else (scanFiles c s files).map (c, ·)

/-- `stop` (/repo/services/FileService.cpp:614-620). -/
def stop (s : St) : St := { s with cache := [] }

end Verif.FileService
