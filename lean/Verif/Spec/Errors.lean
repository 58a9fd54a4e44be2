import Verif.Spec.FileSite
import Verif.Model.Errors
/-
What a report about an error has to say: what has gone wrong, and the name it has gone wrong with.
-/
namespace Verif.Spec.Errors
open Verif.Errors Verif.Spec.FileSite Verif.Spec.Dispatch
open Verif.Spec.Path (resolve)
open Verif.FileSite (World)
open Verif.FileService (Fs)
open Verif.Config (Call)

/-- What can go wrong. -/
inductive What where
  | badArgument | badConfig | fileNotOpened | pluginNotOpened | fileNotRead | noFile | noDirectory | noPlugin | duplicate
  | noSymbol | undefined | badHash
  deriving Repr, DecidableEq

/-- In words. -/
def What.text : What → Bytes
  | .badArgument => b! "bad argument"
  | .badConfig => b! "config parser error"
  | .fileNotOpened => b! "unable to open file"
  | .pluginNotOpened => b! "unable to open plugin"
  | .fileNotRead => b! "unable to read file"
  | .noFile => b! "file not found"
  | .noDirectory => b! "directory not found"
  | .noPlugin => b! "plugin not found"
  | .duplicate => b! "duplicate plugin"
  | .noSymbol => b! "missing plugin symbol"
  | .undefined => b! "plugin has undefined state"
  | .badHash => b! "bad password hash"

/-- A report: what has gone wrong and, if there is one, the name. -/
def report (w : What) : Option Bytes → Bytes
  | none => w.text
  | some n => w.text ++ b! ": " ++ n

/-- What each statement that throws has to report. -/
def subject : Fault → What × Option Bytes
  | .addDirectory d => (.noDirectory, some d)
  | .noPlugin n => (.noPlugin, some n)
  | .notLoaded f _ => (.pluginNotOpened, some (PluginFiles.pluginName f))
  | .noSymbol f g => (.noSymbol, some (g ++ PluginFiles.pluginName f))
  | .noFunction => (.undefined, none)
  | .unmanaged id => (.noPlugin, some id)
  | .managed id => (.duplicate, some id)
  | .option n => (.badArgument, some n)
  | .noConfig n => (.noFile, some n)
  | .configNotOpened n => (.fileNotOpened, some n)
  | .config n => (.badConfig, some n)
  | .hash => (.badHash, none)
  | .noDirectory d => (.noDirectory, some d)
  | .noFile f => (.noFile, some f)
  | .unread f => (.fileNotRead, some f)

/-- The name has no null byte. -/
def Clean (n : Option Bytes) : Prop := ∀ s ∈ n, (0 : UInt8) ∉ s

/-- The values an option of the file service can be set to, for those which have a list. -/
def choices (n : Bytes) : List Bytes :=
  if n = b! "cache" then [b! "0", b! "1", b! "2"]
  else if n = b! "scan" then [b! "0", b! "1", b! "2", b! "3"]
  else if n = b! "writable" then [b! "true", b! "false"]
  else []

/-- What is wrong with a command that is given to a server after these commands, which were all in order. -/
inductive Wrong (w : World) (library : Bytes → Library) (fs : Fs) (before : List Call) : Call → What → Option Bytes → Prop where
  /-- there is a service for the resource already -/
  | twice {r p : Bytes} : noSlash r ∈ loaded before → Wrong w library fs before (.loadService r p) .duplicate (some (noSlash r))
  /-- there is no file with the plug-in -/
  | noPlugin {r p : Bytes} : library p = .missing → Wrong w library fs before (.loadService r p) .noPlugin (some p)
  /-- the file with the plug-in cannot be loaded -/
  | notLoaded {r p file : Bytes} {image : PluginCode.Image} {reason : Option Bytes} : library p = .found file image reason →
      image.loads = false →
      Wrong w library fs before (.loadService r p) .pluginNotOpened (some (PluginFiles.pluginName file))
  /-- the file with the plug-in has not the functions it must have -/
  | noSymbol {r p file f : Bytes} {image : PluginCode.Image} {reason : Option Bytes} : library p = .found file image reason →
      f = b! "pion_create_" ∨ f = b! "pion_destroy_" → f ++ PluginFiles.pluginName file ∉ image.symbols →
      Wrong w library fs before (.loadService r p) .noSymbol (some (f ++ PluginFiles.pluginName file))
  /-- there is no service for the resource -/
  | noService {r n v : Bytes} : noSlash r ∉ loaded before →
      Wrong w library fs before (.setOption r n v) .noPlugin (some (noSlash r))
  /-- the directory does not exist, or its path is empty; `p` is another way to write its path -/
  | noDirectory {r v p : Bytes} : Loads before (noSlash r) (b! "FileService") → resolve w.cwd p = resolve w.cwd v →
      (∀ b, fs (resolve w.cwd v) ≠ some (.dir b)) ∨ p = [] →
      Wrong w library fs before (.setOption r (b! "directory") v) .noDirectory (some p)
  /-- the file does not exist, or its path is empty -/
  | noFile {r v : Bytes} : Loads before (noSlash r) (b! "FileService") →
      (∀ f, fs (resolve w.cwd v) ≠ some (.file f)) ∨ v = [] →
      Wrong w library fs before (.setOption r (b! "file") v) .noFile (some v)
  /-- the file service has no such option, or the value is not one of those it can have -/
  | badOption {r n v : Bytes} : Loads before (noSlash r) (b! "FileService") →
      n ∉ [b! "directory", b! "file", b! "max_chunk_size"] → v ∉ choices n →
      Wrong w library fs before (.setOption r n v) .badArgument (some n)
  /-- other services have no options -/
  | noOptions {r n v p : Bytes} : Loads before (noSlash r) p → p ≠ b! "FileService" →
      Wrong w library fs before (.setOption r n v) .badArgument (some n)

/-- An option whose value has to be a number has another one. -/
def NotANumber (w : World) (before : List Call) (c : Call) : Prop :=
  ∃ r v, c = .setOption r (b! "max_chunk_size") v ∧ Loads before (noSlash r) (b! "FileService") ∧ w.number v = none

/-- What the two descriptions of the surroundings of `piond` have in common: which plug-ins can be opened, and what the
    configuration files are. -/
structure Fits (w : World) (library : Bytes → Library) (file : Bytes → File) : Prop where
  opens : ∀ p, w.opens p = (openLibrary p (library p)).isNone
  configs : ∀ n, w.configs n = match file n with | .text t => some t | _ => none

/-- Looking at the text of an exception: `what()` or `pion::diagnostic_information`. -/
inductive Look where
  | what | diagnostic

def look (t : Thrown) : Look → Bytes × Thrown
  | .what => t.what
  | .diagnostic => t.diagnostic

end Verif.Spec.Errors
