import Verif.Model.Path
import Verif.Spec.Path
/-
Model of how `plugin` looks for files (/repo/src/plugin.cpp:28-83, 179-252, 303-337; /repo/include/pion/plugin.hpp:40-57).
`check_cygwin_path` does nothing on other systems (/repo/src/plugin.cpp:48-60).
-/
namespace Verif.PluginFiles
open Verif.Path Verif.Spec.Path

/-- What is known of the file system: the current directory and the places of regular files. There are no symbolic
    links. -/
structure Fs where
  cwd : Place
  regular : Place → Bool

/-- `is_regular` (used in /repo/src/plugin.cpp:215, 240). An exception counts as `false` there. -/
def Fs.isRegular (fs : Fs) (p : Bytes) : Bool :=
  p ≠ [] && p.getLast? ≠ some slash && fs.regular (resolve fs.cwd p)

/-- `check_for_file` (/repo/src/plugin.cpp:200-252): the path found. -/
def checkForFile (fs : Fs) (start name extension : Bytes) : Option Bytes :=
  let test := if name = [] then start else append start name
  if fs.isRegular test then some test
  else
    let test := if name = [] then start ++ extension else append start (name ++ extension)
    if fs.isRegular test then some test else none

/-- The loop over the directories (/repo/src/plugin.cpp:189-194). -/
def searchDirs (fs : Fs) (name extension : Bytes) : List Bytes → Option Bytes
  | [] => none
  | d :: ds =>
    match checkForFile fs d name extension with
    | some p => some p
    | none => searchDirs fs name extension ds

/-- `find_file` (/repo/src/plugin.cpp:179-198). -/
def findFile (fs : Fs) (dirs : List Bytes) (name extension : Bytes) : Option Bytes :=
  match checkForFile fs name [] extension with
  | some p => some p
  | none => searchDirs fs name extension dirs

/-- `PION_PLUGIN_EXTENSION` and `PION_CONFIG_EXTENSION` (/repo/src/plugin.cpp:33-35). -/
def pluginExtension : Bytes := b! ".so"
def configExtension : Bytes := b! ".conf"

/-- The part of a path after the last slash. (Of a path with a slash at the end the library gives "."; no regular file
    has such a path.) -/
def filename (p : Bytes) : Bytes := (p.splitOn slash).getLast?.getD []

/-- The last dot of a file name and what follows it, unless the name is "." or ".."; library code. -/
def extension (f : Bytes) : Bytes :=
  if f = b! "." ∨ f = b! ".." then []
  else if c! "." ∈ f then c! "." :: (f.reverse.takeWhile (· ≠ c! ".")).reverse else []

/-- The file name without its extension; library code. -/
def stem (f : Bytes) : Bytes := f.take (f.length - (extension f).length)

/-- `get_plugin_name` (/repo/src/plugin.cpp:303-306). -/
def pluginName (p : Bytes) : Bytes := stem (filename p)

/-- `get_all_plugin_names` (/repo/src/plugin.cpp:308-337). `list` gives the names in a directory; `none` is the
    exception thrown for one that cannot be read. `statics` are the names of the plug-ins linked statically. -/
def pluginNames (fs : Fs) (list : Bytes → Option (List Bytes)) (statics : List Bytes) : List Bytes → Option (List Bytes)
  | [] => some statics
  | d :: ds =>
    match list d, pluginNames fs list statics ds with
    | some files, some rest =>
      some ((files.filter fun f => fs.isRegular (append d f) && extension f == pluginExtension).map pluginName ++ rest)
    | _, _ => none

/-- `add_plugin_directory` (/repo/src/plugin.cpp:62-76); `exists_` says whether a path exists, `cwd` is the path of
    the current directory, `none` is an exception. -/
def addDirectory (exists_ : Bytes → Bool) (cwd : Bytes) (dirs : List Bytes) (dir : Bytes) : Option (List Bytes) :=
  let p := if dir.head? = some slash then dir else append cwd dir
  if exists_ p then some (dirs ++ [p]) else none

end Verif.PluginFiles
