import Verif.Model.PluginFiles
/-
In what order files are tried.
-/
namespace Verif.Spec.PluginFiles
open Verif.Path

/-- For a name that is not empty: the name itself, relative to the current directory unless absolute, then with the
    extension, then both in each directory. -/
def candidates (dirs : List Bytes) (name extension : Bytes) : List Bytes :=
  [name, name ++ extension] ++ dirs.flatMap fun d => [append d name, append d (name ++ extension)]

end Verif.Spec.PluginFiles
