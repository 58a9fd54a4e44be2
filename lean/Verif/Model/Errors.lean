import Verif.Model.FileSite
import Verif.Model.PluginCode
import Verif.Model.PluginFiles
import Verif.Model.PluginManager
/-
The exceptions of the library (/repo/include/pion/error.hpp), the statements that throw them, and the texts they are reported
with: `what()`, `pion::diagnostic_information`, the answer to a request whose handler throws, and the message that `piond`
logs before it ends.

Simplified: `boost::error_info` objects are found by their type only, so a list of pairs stands for the container of a
`boost::exception`. Copies of an exception share that container; here there is one object. The names of the function, the file
and the line where an exception was thrown are stored by `BOOST_THROW_EXCEPTION`; of these the file and the line are `place`.
Windows is left out.
-/
namespace Verif.Errors
open Verif.FileService (Cfg Fs)
open Verif.Path (normalize)
open Verif.Spec.Path (resolve)
open Verif.FileSite (Site Service)
open Verif.Server

/-- The types of `boost::error_info`, as the compiler tells them apart: by their tag
    (/repo/include/pion/error.hpp:115-131). -/
inductive Tag where
  | arg | file | dir | plugin
  deriving Repr, DecidableEq

/-- The names of the information types in the source. -/
inductive Info where
  | message | argName | fileName | dirName | pluginName | symbolName
  deriving Repr, DecidableEq

/-- /repo/include/pion/error.hpp:115-131: `errinfo_message` has the tag of `errinfo_arg_name`, `errinfo_symbol_name` the one of
    `errinfo_dir_name`. -/
def Info.tag : Info → Tag
  | .message | .argName => .arg
  | .fileName => .file
  | .dirName | .symbolName => .dir
  | .pluginName => .plugin

/-- The classes of /repo/include/pion/error.hpp:41-220. -/
inductive Kind where
  | plain | badArg | badConfig | openFile | openPlugin | readFile | fileNotFound | directoryNotFound | pluginNotFound
  | duplicatePlugin | missingSymbol | undefined | badHash
  deriving Repr, DecidableEq

/-- An exception object: its class, `m_what_msg`, the information attached to it, and where it was thrown. -/
structure Obj where
  kind : Kind
  msg : Bytes := []
  infos : List (Tag × Bytes) := []
  place : Option (Bytes × Nat) := none
  deriving Repr, DecidableEq

/-- `boost::get_error_info`. -/
def Obj.get (e : Obj) (i : Info) : Option Bytes := e.infos.lookup i.tag

/-- `e << info(value)`: what was attached under the same type is replaced. -/
def Obj.attach (e : Obj) (i : Info) (value : Bytes) : Obj :=
  { e with infos := (i.tag, value) :: e.infos.filter fun p => p.1 != i.tag }

/-- What a `const char*` to the text of a string denotes: it ends before the first null byte. -/
def cstr (s : Bytes) : Bytes := s.takeWhile (· ≠ 0)

/-- `set_what_msg` (/repo/include/pion/error.hpp:54-66). -/
def setWhat (msg : Bytes) (arg1 arg2 arg3 : Option Bytes) : Bytes :=
  msg ++ (if arg1.isSome || arg2.isSome || arg3.isSome then b! ":" else []) ++
    [arg1, arg2, arg3].flatMap fun a => match a with | some s => b! " " ++ s | none => []

/-- `update_what_msg` of the classes (/repo/include/pion/error.hpp:67, 139-220). A plain exception has the name of its class. -/
def Obj.updated (e : Obj) : Bytes :=
  match e.kind with
  | .plain => setWhat (b! "pion::exception") none none none
  | .badArg => setWhat (b! "bad argument") (e.get .argName) none none
  | .badConfig => setWhat (b! "config parser error") (e.get .fileName) none none
  | .openFile => setWhat (b! "unable to open file") (e.get .fileName) none none
  | .openPlugin => setWhat (b! "unable to open plugin") (e.get .pluginName) none none
  | .readFile => setWhat (b! "unable to read file") (e.get .fileName) none none
  | .fileNotFound => setWhat (b! "file not found") (e.get .fileName) none none
  | .directoryNotFound => setWhat (b! "directory not found") (e.get .dirName) none none
  | .pluginNotFound => setWhat (b! "plugin not found") (e.get .pluginName) none none
  | .duplicatePlugin => setWhat (b! "duplicate plugin") (e.get .pluginName) none none
  | .missingSymbol => setWhat (b! "missing plugin symbol") (e.get .symbolName) none none
  | .undefined => setWhat (b! "plugin has undefined state") none none none
  | .badHash => setWhat (b! "bad password hash") none none none

/-- `what` (/repo/include/pion/error.hpp:49-52): the text is made once. -/
def Obj.what (e : Obj) : Bytes × Obj :=
  let e := if e.msg = [] then { e with msg := e.updated } else e
  (cstr e.msg, e)

/-- What can be caught as `std::exception`: an exception of this library, or one of another library, with its `what()`. -/
inductive Thrown where
  | pion (e : Obj)
  | std (text : Bytes)
  deriving Repr, DecidableEq

def Thrown.what : Thrown → Bytes × Thrown
  | .pion e => (e.what.1, .pion e.what.2)
  | .std s => (cstr s, .std s)

/-- `pion::diagnostic_information` (/repo/include/pion/error.hpp:78-106). That exceptions of Boost may have a place too is
    left out. -/
def Thrown.diagnostic : Thrown → Bytes × Thrown
  | .pion e =>
    (e.what.1 ++ (match e.place with | some (f, l) => b! " [" ++ f ++ b! ":" ++ toDec l ++ b! "]" | none => []), .pion e.what.2)
  | .std s => (cstr s, .std s)

/-! ### The statements that throw -/

/-- One constructor for each kind of throw statement of the library, with the strings it uses. -/
inductive Fault where
  /-- `plugin::add_plugin_directory` (/repo/src/plugin.cpp:67) -/
  | addDirectory (dir : Bytes)
  /-- `plugin::open` (/repo/src/plugin.cpp:104) -/
  | noPlugin (name : Bytes)
  /-- `plugin::open_plugin` (/repo/src/plugin.cpp:263-278): the file, and the text of `dlerror()` -/
  | notLoaded (file : Bytes) (reason : Option Bytes)
  /-- `plugin::open_plugin` (/repo/src/plugin.cpp:284-289, 295-300): the symbol is "pion_create_" or "pion_destroy_" and the
      name -/
  | noSymbol (file function : Bytes)
  /-- `plugin_ptr::create`, `plugin_ptr::destroy` (/repo/include/pion/plugin.hpp:330, 345) -/
  | noFunction
  /-- `plugin_manager::remove`, `replace`, `clone`, `run`, `get_statistic`
      (/repo/include/pion/plugin_manager.hpp:203, 219, 234, 354, 378) -/
  | unmanaged (id : Bytes)
  /-- `plugin_manager::load` (/repo/include/pion/plugin_manager.hpp:244) -/
  | managed (id : Bytes)
  /-- `set_option` of services and authenticators (/repo/include/pion/http/plugin_service.hpp:55,
      /repo/include/pion/http/auth.hpp:69, /repo/src/http_basic_auth.cpp:101, /repo/src/http_cookie_auth.cpp:102,
      /repo/services/FileService.cpp:88, 100, 110, 113) -/
  | option (name : Bytes)
  /-- `load_service_config` (/repo/src/http_plugin_server.cpp:58) -/
  | noConfig (name : Bytes)
  /-- `load_service_config` (/repo/src/http_plugin_server.cpp:64) -/
  | configNotOpened (name : Bytes)
  /-- `load_service_config` (/repo/src/http_plugin_server.cpp:92-208) -/
  | config (name : Bytes)
  /-- `user::set_password_hash` (/repo/include/pion/user.hpp:121) -/
  | hash
  /-- `FileService::set_option` (/repo/services/FileService.cpp:61-67) -/
  | noDirectory (dir : Bytes)
  /-- `FileService::set_option` (/repo/services/FileService.cpp:72-79) -/
  | noFile (file : Bytes)
  /-- `DiskFile::read` (/repo/services/FileService.cpp:777-784) -/
  | unread (file : Bytes)
  deriving Repr, DecidableEq

/-- The object that is thrown (without its place). -/
def Fault.obj : Fault → Obj
  | .addDirectory dir | .noDirectory dir => ({ kind := .directoryNotFound } : Obj).attach .dirName dir
  | .noPlugin name | .unmanaged name => ({ kind := .pluginNotFound } : Obj).attach .pluginName name
  | .notLoaded file (some reason) =>
    (({ kind := .openPlugin } : Obj).attach .pluginName (PluginFiles.pluginName file)).attach .message
      (file ++ b! " (" ++ reason ++ b! ")")
  | .notLoaded file none => ({ kind := .openPlugin } : Obj).attach .pluginName (PluginFiles.pluginName file)
  | .noSymbol file function =>
    (({ kind := .missingSymbol } : Obj).attach .pluginName (PluginFiles.pluginName file)).attach .symbolName
      (function ++ PluginFiles.pluginName file)
  | .noFunction => { kind := .undefined }
  | .managed id => ({ kind := .duplicatePlugin } : Obj).attach .pluginName id
  | .option name => ({ kind := .badArg } : Obj).attach .argName name
  | .noConfig name | .noFile name => ({ kind := .fileNotFound } : Obj).attach .fileName name
  | .configNotOpened name => ({ kind := .openFile } : Obj).attach .fileName name
  | .config name => ({ kind := .badConfig } : Obj).attach .fileName name
  | .hash => { kind := .badHash }
  | .unread file => ({ kind := .readFile } : Obj).attach .fileName file

/-- `BOOST_THROW_EXCEPTION`: where. -/
def Fault.thrown (place : Fault → Bytes × Nat) (f : Fault) : Thrown := .pion { f.obj with place := some (place f) }

/-! ### Which exception a call throws -/

/-- Either a statement of this library throws, or one of another library with this text. -/
inductive Cause where
  | fault (f : Fault)
  | other (text : Bytes)
  deriving Repr, DecidableEq

def Cause.thrown (place : Fault → Bytes × Nat) : Cause → Thrown
  | .fault f => f.thrown place
  | .other s => .std s

/-- `what()` of `boost::bad_lexical_cast`. -/
def BAD_CAST : Bytes := b! "bad lexical cast: source type value could not be interpreted as target"

/-- `FileService::set_option` (/repo/services/FileService.cpp:53-115); `none`: nothing is thrown. -/
def fileOption (number : Bytes → Option Nat) (fs : Fs) (c : Cfg) (name value : Bytes) : Option Cause :=
  if name = b! "directory" then
    match fs (resolve c.cwd (normalize value)) with
    | some (.dir _) => if normalize value = [] then some (.fault (.noDirectory (normalize value))) else none
    | _ => some (.fault (.noDirectory (normalize value)))
  else if name = b! "file" then
    match fs (resolve c.cwd value) with
    | some (.file _) => if value = [] then some (.fault (.noFile value)) else none
    | _ => some (.fault (.noFile value))
  else if name = b! "cache" then
    if value = b! "0" ∨ value = b! "1" ∨ value = b! "2" then none else some (.fault (.option name))
  else if name = b! "scan" then
    if value = b! "0" ∨ value = b! "1" ∨ value = b! "2" ∨ value = b! "3" then none else some (.fault (.option name))
  else if name = b! "max_chunk_size" then
    match number value with
    | some _ => none
    | none => some (.other BAD_CAST)
  else if name = b! "writable" then
    if value = b! "true" ∨ value = b! "false" then none else some (.fault (.option name))
  else some (.fault (.option name))

/-- What the search for the library of a plug-in ends with: it is there already, there is no file, or there is this file, in
    which the system finds this, or cannot load it for this reason. -/
inductive Library where
  | ready
  | missing
  | found (file : Bytes) (image : PluginCode.Image) (reason : Option Bytes)

/-- `plugin::open` (/repo/src/plugin.cpp:84-107) and `open_plugin` (254-301). -/
def openLibrary (name : Bytes) : Library → Option Cause
  | .ready => none
  | .missing => some (.fault (.noPlugin name))
  | .found file image reason =>
    if ¬ image.loads then some (.fault (.notLoaded file reason))
    else if b! "pion_create_" ++ PluginFiles.pluginName file ∉ image.symbols then some (.fault (.noSymbol file (b! "pion_create_")))
    else if b! "pion_destroy_" ++ PluginFiles.pluginName file ∉ image.symbols then
      some (.fault (.noSymbol file (b! "pion_destroy_")))
    else none

/-- The calls of a plug-in manager (/repo/include/pion/plugin_manager.hpp:188-259). -/
def manager (library : Library) (m : Plugins.Mgr) : Plugins.Op → Option Cause
  | .add _ _ | .clear => none
  | .load id lib _ _ => if (m.map.lookup id).isSome then some (.fault (.managed id)) else openLibrary lib library
  | .remove id | .replace id _ => if (m.map.lookup id).isSome then none else some (.fault (.unmanaged id))

/-- `plugin_server::load_service` (/repo/src/http_plugin_server.cpp:34-42). -/
def load (library : Bytes → Library) (s : Site) (resource plugin : Bytes) : Option Cause :=
  if (s.services.lookup (stripSlash resource)).isSome then some (.fault (.managed (stripSlash resource)))
  else openLibrary plugin (library plugin)

/-- `plugin_server::set_service_option` (/repo/src/http_plugin_server.cpp:44-51). -/
def option (w : FileSite.World) (s : Site) (resource name value : Bytes) : Option Cause :=
  match s.services.lookup (stripSlash resource) with
  | some (.file c _) => fileOption w.number s.fs c name value
  | some (.other _) => some (.fault (.option name))
  | none => some (.fault (.unmanaged (stripSlash resource)))

def call (w : FileSite.World) (library : Bytes → Library) (s : Site) : Config.Call → Option Cause
  | .addDirectory _ => none
  | .loadService r p => load library s r p
  | .setOption r n v => option w s r n v

/-- The last call of a list, after the others. -/
def lastCall (w : FileSite.World) (library : Bytes → Library) (s : Site) (calls : List Config.Call) : Option Cause :=
  match calls.getLast?, s.calls w calls.dropLast with
  | some c, some s => call w library s c
  | _, _ => none

/-- A configuration file by its name: it is not found, found but not opened, or has this text. -/
inductive File where
  | missing | locked
  | text (t : Bytes)

/-- `load_service_config` (/repo/src/http_plugin_server.cpp:54-239). -/
def configure (w : FileSite.World) (library : Bytes → Library) (s : Site) (name : Bytes) : File → Option Cause
  | .missing => some (.fault (.noConfig name))
  | .locked => some (.fault (.configNotOpened name))
  | .text t =>
    match Config.load (FileSite.throws w s) t with
    | .finished _ _ => none
    | .badConfig _ => some (.fault (.config name))
    | .threw calls => lastCall w library s calls

/-- The steps of `main` (/repo/utils/piond.cpp:144-174), without those of the network and of threads; what a service throws
    when it is started is left open. -/
def step (w : FileSite.World) (library : Bytes → Library) (file : Bytes → File) (starts : Site → Cause) (s : Site) :
    Piond.Do → Option Cause
  | .listen _ _ | .sslKey _ | .waitForShutdown => none
  | .loadService r p => load library s r p
  | .setOption r n v => option w s r n v
  | .loadConfig name => configure w library s name (file name)
  | .start => if (s.start w).isSome then none else some (starts s)

/-- The first exception of `main`, which ends it (/repo/utils/piond.cpp:144-178). -/
def steps (w : FileSite.World) (library : Bytes → Library) (file : Bytes → File) (starts : Site → Cause) (now : Nat) (s : Site) :
    List Piond.Do → Option Cause
  | [] => none
  | d :: ds =>
    match step w library file starts s d with
    | some c => some c
    | none => (s.do w now d).bind fun s => steps w library file starts now s ds

/-- The message of level FATAL that `piond` logs before it ends (/repo/utils/piond.cpp:176-178), if its command line is one. -/
def fatal (w : FileSite.World) (args : Piond.World) (library : Bytes → Library) (file : Bytes → File) (starts : Site → Cause)
    (place : Fault → Bytes × Nat) (now : Nat) (fs : Fs) (line : List Bytes) : Option Bytes :=
  match Piond.commandLine args line with
  | .ok o => (steps w library file starts now { fs := fs } (Piond.serve o)).map fun c => (c.thrown place).diagnostic.1
  | _ => none

/-- A handler of requests throws (/repo/src/http_server.cpp:112-115): the message of level ERROR that is logged, and the answer.
    `std::bad_alloc` is passed on instead; that a `boost::exception` which is no `std::exception` is caught too (116-119) is
    left out. -/
def handlerThrew (t : Thrown) : Bytes × Responses.Reply :=
  let d := t.diagnostic
  (b! "HTTP request handler: " ++ d.1, Responses.serverError d.2.what.1)

end Verif.Errors
