import Verif.Model.FileService
/-
What users expect of the file service.
-/
namespace Verif.Spec.FileService
open Verif.FileService Verif.Spec.Path

/-- The place a request is for: that of the configured file, or the one reached from the configured directory along
    the names of the relative path. -/
def requested (c : Cfg) (rel : Bytes) : Place :=
  if rel = [] then resolve c.cwd c.file
  else walk (resolve c.cwd c.directory) ((rel.splitOn (c! "/")).filter (· ≠ []))

/-- What can happen to a service with a given configuration and its file system: requests, changes of the file system by
    others, starting (with the regular files found in the directory) and stopping. The first argument is the list of
    the states of the file system so far, the latest first. -/
inductive Hist (c : Cfg) : List Fs → St → Prop where
  | init (fs : Fs) : Hist c [fs] { fs := fs }
  | change {past : List Fs} {s : St} (fs : Fs) : Hist c past s → Hist c (fs :: past) { s with fs := fs }
  | start {past : List Fs} {s s' : St} {files : List (List Bytes)} : Hist c past s →
      (∀ ns ∈ files, ns ≠ [] ∧ ∀ n ∈ ns, n ≠ [] ∧ c! "/" ∉ n) → start c s files = some (c, s') → Hist c past s'
  | request {past : List Fs} {s : St} (r : Req) (now : Int) : Hist c past s →
      Hist c ((handle c s r now).2.fs :: past) (handle c s r now).2
  | stop {past : List Fs} {s : St} : Hist c past s → Hist c past (stop s)

/-- The server may read every file it ever finds. -/
def AllReadable (past : List Fs) : Prop := ∀ fs ∈ past, ∀ p f, fs p = some (.file f) → f.readable = true

/-- In a directory, or in one beside it whose name begins with the directory's name. `dir` is the parent's place and `d`
    the directory's name. -/
def InsideOrBeside (dir : Place) (d : Bytes) (p : Place) : Prop := ∃ suffix rest, p = dir ++ (d ++ suffix) :: rest

end Verif.Spec.FileService
