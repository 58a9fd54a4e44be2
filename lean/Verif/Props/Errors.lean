import Verif.Spec.Errors
import Verif.Lemmas.FileSite
import Verif.Lemmas.Path
import Verif.Props.FileSite
import Verif.Props.Responses
/-
C92: an error is reported with what has gone wrong and the name it has gone wrong with.
-/
namespace Verif.Props.Errors
open Verif.Errors Verif.Spec.Errors Verif.Spec.FileSite Verif.Spec.Dispatch
open Verif.FileSite (World Site piond)
open Verif.FileService (Fs Cfg)
open Verif.Config (Call)
open Verif.Path (normalize)
open Verif.Spec.Path (resolve)
open Verif.Responses Verif.Props.Responses
open Verif.Http (Cfg.isRequest)

/-! ### Texts -/

private theorem text_colon : ∀ w : What, c! ":" ∉ w.text ∧ (0 : UInt8) ∉ w.text := by
  intro w; cases w <;> decide +kernel

private theorem text_inj : ∀ a b : What, a.text = b.text → a = b := by
  intro a b; cases a <;> cases b <;> decide +kernel

private theorem takeWhile_stop {a : Bytes} {c : UInt8} (b : Bytes) (h : c ∉ a) : (a ++ c :: b).takeWhile (· ≠ c) = a := by
  induction a with
  | nil => simp
  | cons x a ih =>
    rw [List.mem_cons, not_or] at h
    rw [List.cons_append, List.takeWhile_cons_of_pos (by simpa using Ne.symm h.1), ih h.2]

private theorem takeWhile_none {a : Bytes} {c : UInt8} (h : c ∉ a) : a.takeWhile (· ≠ c) = a := by
  induction a with
  | nil => rfl
  | cons x a ih =>
    rw [List.mem_cons, not_or] at h
    rw [List.takeWhile_cons_of_pos (by simpa using Ne.symm h.1), ih h.2]

/-- **C92 (reports tell errors apart).** From a report it can be told what has gone wrong, and with which name. -/
theorem report_inj {a b : What} {m n : Option Bytes} (h : report a m = report b n) : a = b ∧ m = n := by
  have key : ∀ (w : What) (n : Option Bytes), (report w n).takeWhile (· ≠ c! ":") = w.text := by
    intro w n
    cases n with
    | none => exact takeWhile_none (text_colon w).1
    | some n =>
      show (w.text ++ b! ": " ++ n).takeWhile _ = _
      rw [List.append_assoc]
      exact takeWhile_stop _ (text_colon w).1
  have hab : a = b := text_inj _ _ (by rw [← key a m, h, key])
  subst hab
  refine ⟨rfl, ?_⟩
  cases m <;> cases n <;> simp only [report, List.append_assoc] at h
  · rfl
  · exact absurd h.symm (by simp)
  · exact absurd h (by simp)
  · rw [List.append_cancel_left_eq, List.append_cancel_left_eq] at h
    rw [h]

private theorem report_ne (w : What) (n : Option Bytes) : report w n ≠ [] := by
  have : w.text ≠ [] := by cases w <;> decide +kernel
  cases n <;> simp [report, this]

private theorem updated_subject (f : Fault) : f.obj.msg = [] ∧ f.obj.updated = report (subject f).1 (subject f).2 := by
  cases f with
  | notLoaded file reason =>
    cases reason <;> exact ⟨rfl, by simp [Fault.obj, Obj.attach, Obj.updated, Obj.get, setWhat, report, subject, What.text, Info.tag, List.lookup, show (Tag.plugin == Tag.arg) = false from rfl]⟩
  | _ => exact ⟨rfl, by simp [Fault.obj, Obj.attach, Obj.updated, Obj.get, setWhat, report, subject, What.text, Info.tag]⟩

private theorem updated_ne (e : Obj) : e.updated ≠ [] := by
  unfold Obj.updated setWhat
  split <;> simp

private theorem msg_ne (e : Obj) : e.what.2.msg ≠ [] := by
  unfold Obj.what
  dsimp only
  split
  · exact updated_ne e
  · next h => exact h

private theorem what_msg (e : Obj) (h : e.msg = []) : e.what = (cstr e.updated, { e with msg := e.updated }) := by
  unfold Obj.what; rw [if_pos h]

/-- The text of a thrown exception, for every statement that throws and whatever the name. -/
theorem what_fault (place : Fault → Bytes × Nat) (f : Fault) :
    (f.thrown place).what.1 = cstr (report (subject f).1 (subject f).2) := by
  have h := updated_subject f
  show (Obj.what _).1 = _
  rw [what_msg _ (show ({ f.obj with place := some (place f) } : Obj).msg = [] from h.1)]
  exact congrArg cstr h.2

private theorem cstr_clean {w : What} {n : Option Bytes} (h : Clean n) : cstr (report w n) = report w n := by
  refine takeWhile_none ?_
  cases n with
  | none => exact (text_colon w).2
  | some n =>
    have := h n rfl
    have := (text_colon w).2
    simp only [report, List.mem_append, not_or]
    exact ⟨⟨this, by decide⟩, h n rfl⟩

/-- **C92 (texts; partial: names with null bytes are cut, see `null_cut`).** `what()` of every exception the library throws
    says what has gone wrong and names what it has gone wrong with. -/
theorem what_says_partial (place : Fault → Bytes × Nat) (f : Fault) (h : Clean (subject f).2) :
    (f.thrown place).what.1 = report (subject f).1 (subject f).2 := by
  rw [what_fault, cstr_clean h]

/-- **C92 (texts tell errors apart; partial: names without null bytes).** -/
theorem what_inj_partial (place : Fault → Bytes × Nat) (f g : Fault) (hf : Clean (subject f).2) (hg : Clean (subject g).2)
    (h : (f.thrown place).what.1 = (g.thrown place).what.1) : subject f = subject g := by
  rw [what_says_partial place f hf, what_says_partial place g hg] at h
  exact Prod.ext (report_inj h).1 (report_inj h).2

/-- `pion::diagnostic_information` adds the file and the line. -/
theorem diagnostic_says_partial (place : Fault → Bytes × Nat) (f : Fault) (h : Clean (subject f).2) :
    (f.thrown place).diagnostic.1 =
      report (subject f).1 (subject f).2 ++ b! " [" ++ (place f).1 ++ b! ":" ++ toDec (place f).2 ++ b! "]" := by
  have := what_says_partial place f h
  simp only [Fault.thrown, Thrown.what, Thrown.diagnostic] at this ⊢
  rw [this]
  simp only [List.append_assoc]

/-- **C92 is violated by names with null bytes**: what comes after the null byte is not reported. -/
theorem null_cut (place : Fault → Bytes × Nat) : ∃ f g, subject f ≠ subject g ∧ (f.thrown place).what.1 = (g.thrown place).what.1 :=
  ⟨.option (b! "a" ++ [0] ++ b! "b"), .option (b! "a" ++ [0]), by decide, by rw [what_fault, what_fault]; decide +kernel⟩

/-- **C92 (looking does not change anything).** However often and however an exception is looked at, its texts stay the same. -/
theorem looks_same (t : Thrown) (ls : List Look) (l : Look) :
    (look (ls.foldl (fun t l => (look t l).2) t) l).1 = (look t l).1 := by
  have step : ∀ (t : Thrown) (l l' : Look), (look (look t l).2 l').1 = (look t l').1 := by
    intro t l l'
    have hidem : ∀ e : Obj, e.what.2.what = (e.what.1, e.what.2) := by
      intro e
      rw [Obj.what, if_neg (msg_ne e)]
      rfl
    have hplace : ∀ e : Obj, e.what.2.place = e.place := by
      intro e; unfold Obj.what; dsimp only; split <;> rfl
    cases t with
    | std s => cases l <;> cases l' <;> rfl
    | pion e => cases l <;> cases l' <;> simp only [look, Thrown.what, Thrown.diagnostic, hidem, hplace]
  induction ls generalizing t with
  | nil => rfl
  | cons x ls ih => rw [List.foldl_cons, ih, step]

/-- **Information that is attached after the first look is not reported.** -/
theorem attach_late (e : Obj) (i : Info) (v : Bytes) : (e.what.2.attach i v).what.1 = e.what.1 := by
  have h2 : (e.what.2.attach i v).msg ≠ [] := msg_ne e
  rw [Obj.what, if_neg h2]
  show cstr e.what.2.msg = _
  rfl

example : ((({ kind := .badArg } : Obj).what.2.attach .argName (b! "port")).what.1, (({ kind := .badArg } : Obj).attach .argName (b! "port")).what.1) =
    (b! "bad argument", b! "bad argument: port") := by decide +kernel

/-- **C92 is violated by `errinfo_message`**: why a library cannot be loaded is attached to the exception but is in none of its
    texts. -/
theorem reason_lost (place : Fault → Bytes × Nat) (hp : ∀ f r r', place (.notLoaded f r) = place (.notLoaded f r')) (file r r' : Bytes) :
    ((Fault.notLoaded file (some r)).thrown place).what.1 = ((Fault.notLoaded file (some r')).thrown place).what.1 ∧
    ((Fault.notLoaded file (some r)).thrown place).diagnostic.1 = ((Fault.notLoaded file (some r')).thrown place).diagnostic.1 := by
  have h : ((Fault.notLoaded file (some r)).thrown place).what.1 = ((Fault.notLoaded file (some r')).thrown place).what.1 := by
    rw [what_fault, what_fault]; rfl
  refine ⟨h, ?_⟩
  simp only [Fault.thrown, Thrown.what, Thrown.diagnostic] at h ⊢
  rw [h, hp file (some r) (some r')]

/-- `errinfo_message` and `errinfo_arg_name` are the same type, as are `errinfo_symbol_name` and `errinfo_dir_name`: the one
    attached later replaces the other. -/
theorem same_type (e : Obj) (v w : Bytes) :
    (((e.attach .argName v).attach .message w).get .argName = some w ∧ ((e.attach .dirName v).attach .symbolName w).get .dirName = some w) ∧
    (((e.attach .fileName v).attach .message w).get .fileName = some v ∧ ((e.attach .pluginName v).attach .symbolName w).get .pluginName = some v) := by
  refine ⟨⟨?_, ?_⟩, ?_, ?_⟩ <;> simp [Obj.attach, Obj.get, Info.tag, List.lookup, show (Tag.file == Tag.arg) = false from rfl, show (Tag.plugin == Tag.dir) = false from rfl]

/-! ### Which calls throw, and what -/

/-- `FileService::set_option` throws exactly if `FileService.setOption` says so. -/
theorem fileOption_none (number : Bytes → Option Nat) (fs : Fs) (c : Cfg) (name value : Bytes) :
    fileOption number fs c name value = none ↔ ∃ c', FileService.setOption number fs c name value = .ok c' := by
  unfold fileOption FileService.setOption
  split
  · dsimp only
    cases fs (resolve c.cwd (normalize value)) with
    | none => simp
    | some n => cases n <;> by_cases h : normalize value = [] <;> simp [h]
  split
  · dsimp only
    cases fs (resolve c.cwd value) with
    | none => simp
    | some n => cases n <;> by_cases h : value = [] <;> simp [h]
  split
  · by_cases h0 : value = b! "0"
    · simp [h0]
    by_cases h1 : value = b! "1"
    · simp [h1]
    by_cases h2 : value = b! "2" <;> simp [h0, h1, h2]
  split
  · by_cases h0 : value = b! "0"
    · simp [h0]
    by_cases h1 : value = b! "1"
    · simp [h1]
    by_cases h2 : value = b! "2"
    · simp [h2]
    by_cases h3 : value = b! "3" <;> simp [h0, h1, h2, h3]
  split
  · cases number value <;> simp
  split
  · by_cases h0 : value = b! "true"
    · simp [h0]
    by_cases h1 : value = b! "false" <;> simp [h0, h1]
  · simp

/-- `plugin::open_plugin` throws exactly if `PluginCode.openPlugin` says so. -/
theorem openLibrary_none (name file : Bytes) (image : PluginCode.Image) (reason : Option Bytes) :
    openLibrary name (.found file image reason) = none ↔ (PluginCode.openPlugin (PluginFiles.pluginName file) image).1 = true := by
  unfold openLibrary PluginCode.openPlugin
  dsimp only
  split
  · simp
  split
  · simp
  split <;> simp

/-- **C92 (plug-in managers).** A call of a plug-in manager throws exactly if it fails, and then the exception names the
    identifier, or says why the library cannot be used. -/
theorem manager_report (library : Library) (m : Plugins.Mgr) (op : Plugins.Op)
    (hop : ∀ id lib opens obj, op = .load id lib opens obj → opens = (openLibrary lib library).isNone) :
    (manager library m op = none ↔ (Plugins.step m op).1 = .ok) ∧
    ((Plugins.step m op).1 = .notFound → ∃ id, manager library m op = some (.fault (.unmanaged id)) ∧ (op = .remove id ∨ ∃ o, op = .replace id o)) ∧
    ((Plugins.step m op).1 = .duplicate → ∃ id lib opens o, op = .load id lib opens o ∧ manager library m op = some (.fault (.managed id))) ∧
    ((Plugins.step m op).1 = .noLibrary → ∃ id lib opens o, op = .load id lib opens o ∧ manager library m op = openLibrary lib library) := by
  cases op with
  | add id o => simp [manager, Plugins.step]
  | clear => simp [manager, Plugins.step]
  | remove id =>
    cases h : m.map.lookup id <;> simp [manager, Plugins.step, h]
  | replace id o =>
    cases h : m.map.lookup id <;> simp [manager, Plugins.step, h]
  | load id lib opens o =>
    have hop := hop id lib opens o rfl
    cases h : m.map.lookup id with
    | some e => simp [manager, Plugins.step, h]
    | none =>
      cases ho : openLibrary lib library <;> rw [ho] at hop <;> subst hop <;> simp [manager, Plugins.step, h, ho]

private theorem load_none {w : World} {library : Bytes → Library} {file : Bytes → File} (hf : Fits w library file) (s : Site) (r p : Bytes) :
    load library s r p = none ↔ (s.load w r p).isSome := by
  unfold load Site.load
  dsimp only
  rw [hf.opens]
  cases h : s.services.lookup (Server.stripSlash r) with
  | some e => simp
  | none => cases ho : openLibrary p (library p) <;> simp

private theorem option_none (w : World) (s : Site) (r n v : Bytes) : option w s r n v = none ↔ (s.option w r n v).isSome := by
  unfold option Site.option
  dsimp only
  cases h : s.services.lookup (Server.stripSlash r) with
  | none => simp
  | some e =>
    cases e with
    | other p => simp
    | file c m =>
      dsimp only
      rw [fileOption_none]
      cases FileService.setOption w.number s.fs c n v <;> simp

private theorem call_none {w : World} {library : Bytes → Library} {file : Bytes → File} (hf : Fits w library file) (s : Site) (c : Call) :
    call w library s c = none ↔ (s.call w c).isSome := by
  cases c with
  | addDirectory d => simp [call, Site.call]
  | loadService r p => exact load_none hf s r p
  | setOption r n v => exact option_none w s r n v

private theorem settings_cwd {w : World} {fs : Fs} : ∀ (os : List (Bytes × Bytes)) {c c' : Cfg}, settings w fs c os = some c' → c'.cwd = c.cwd := by
  intro os
  induction os with
  | nil => intro c c' h; cases h; rfl
  | cons o os ih =>
    intro c c' h
    unfold settings at h
    cases hs : FileService.setOption w.number fs c o.1 o.2 with
    | thrown d => rw [hs] at h; cases h
    | ok d =>
      rw [hs] at h
      rw [ih h]
      have : d.cwd = c.cwd := by
        unfold FileService.setOption at hs
        dsimp only at hs
        repeat' split at hs
        all_goals first | (cases hs; rfl) | cases hs
      exact this

private theorem fileOption_wrong {w : World} {library : Bytes → Library} {fs : Fs} {before : List Call} {c : Cfg} {r n v : Bytes} {cause : Cause}
    (hcwd : c.cwd = w.cwd) (hl : Loads before (noSlash r) (b! "FileService")) (h : fileOption w.number fs c n v = some cause) :
    (cause = .other BAD_CAST ∧ NotANumber w before (.setOption r n v)) ∨
    ∃ f, cause = .fault f ∧ Wrong w library fs before (.setOption r n v) (subject f).1 (subject f).2 := by
  unfold fileOption at h
  rw [hcwd] at h
  split at h
  · next hn =>
    subst hn
    right
    refine ⟨.noDirectory (normalize v), ?_, .noDirectory hl (Path.resolve_normalize _ _) ?_⟩
    · split at h
      · split at h
        · cases h; rfl
        · cases h
      · cases h; rfl
    · rw [Path.resolve_normalize] at h
      split at h
      · split at h
        · next h2 => exact .inr h2
        · cases h
      · next h2 => exact .inl fun b hb => h2 b hb
  next hn1 =>
  split at h
  · next hn =>
    subst hn
    right
    refine ⟨.noFile v, ?_, .noFile hl ?_⟩
    · split at h
      · split at h
        · cases h; rfl
        · cases h
      · cases h; rfl
    · split at h
      · split at h
        · next h2 => exact .inr h2
        · cases h
      · next h2 => exact .inl fun b hb => h2 b hb
  next hn2 =>
  have hbad : n ≠ b! "max_chunk_size" → v ∉ choices n → cause = .fault (.option n) →
      (cause = .other BAD_CAST ∧ NotANumber w before (.setOption r n v)) ∨
        ∃ f, cause = .fault f ∧ Wrong w library fs before (.setOption r n v) (subject f).1 (subject f).2 :=
    fun h1 h2 h3 => .inr ⟨_, h3, .badOption hl (by simp only [List.mem_cons, List.not_mem_nil, or_false, not_or]; exact ⟨hn1, hn2, h1⟩) h2⟩
  split at h
  · next hn =>
    split at h
    · cases h
    · next hv =>
      cases h
      exact hbad (by rw [hn]; decide) (by rw [choices, if_pos hn]; simpa using hv) rfl
  next hn3 =>
  split at h
  · next hn =>
    split at h
    · cases h
    · next hv =>
      cases h
      exact hbad (by rw [hn]; decide) (by rw [choices, if_neg hn3, if_pos hn]; simpa using hv) rfl
  next hn4 =>
  split at h
  · next hn =>
    subst hn
    split at h
    · cases h
    · next hv =>
      cases h
      exact .inl ⟨rfl, r, v, rfl, hl, hv⟩
  next hn5 =>
  split at h
  · next hn =>
    split at h
    · cases h
    · next hv =>
      cases h
      exact hbad hn5 (by rw [choices, if_neg hn3, if_neg hn4, if_pos hn]; simpa using hv) rfl
  next hn6 =>
  cases h
  exact hbad hn5 (by rw [choices, if_neg hn3, if_neg hn4, if_neg hn6]; simp) rfl

/-- **C92 (commands; partial: `NotANumber`, see `cast_unnamed`).** A command given to a server, on the command line or in the
    configuration file, after other commands that were in order: if it throws, the exception says what is wrong with it. -/
theorem command_report_partial {w : World} {library : Bytes → Library} {fs : Fs} {before : List Call} {s : Site}
    (hs : ({ fs := fs } : Site).calls w before = some s) {c : Call} {cause : Cause} (h : call w library s c = some cause) :
    (cause = .other BAD_CAST ∧ NotANumber w before c) ∨
    ∃ f, cause = .fault f ∧ Wrong w library fs before c (subject f).1 (subject f).2 := by
  have M := FileSite.made before hs
  cases c with
  | addDirectory d => cases h
  | loadService r p =>
    right
    unfold call load at h
    dsimp only at h
    rw [Server.stripSlash_eq] at h
    split at h
    · next hin => cases h; exact ⟨_, rfl, .twice ((M.present _).1 hin)⟩
    · unfold openLibrary at h
      split at h
      · cases h
      · next hm => cases h; exact ⟨_, rfl, .noPlugin hm⟩
      · next file image reason hm =>
        split at h
        · next hl => cases h; exact ⟨_, rfl, .notLoaded hm (by simpa using hl)⟩
        split at h
        · next hl => cases h; exact ⟨_, rfl, .noSymbol hm (.inl rfl) hl⟩
        split at h
        · next hl => cases h; exact ⟨_, rfl, .noSymbol hm (.inr rfl) hl⟩
        · cases h
  | setOption r n v =>
    unfold call option at h
    dsimp only at h
    rw [Server.stripSlash_eq] at h
    split at h
    · next c m hc =>
      have hm := M.caches _ _ _ hc
      have hfile : Loads before (noSlash r) (b! "FileService") := (M.file _).2 ⟨c, by rw [hc, hm.1]⟩
      rw [M.same] at h
      exact fileOption_wrong (settings_cwd _ hm.2) hfile h
    · next p hc =>
      cases h
      exact .inr ⟨_, rfl, .noOptions (M.other _ _ hc).1 (M.other _ _ hc).2⟩
    · next hc =>
      cases h
      exact .inr ⟨_, rfl, .noService fun hm => by have := (M.present _).2 hm; rw [hc] at this; cases this⟩

/-! ### The configuration file -/

private theorem perform_threw {w : World} {s : Site} {q : Spec.Config.State} (hq : (s.calls w q.2).isSome) {c : Spec.Config.Cmd} {cs : List Call}
    (hc : Spec.Config.perform (FileSite.throws w s) q c = .error (.threw cs)) :
    ∃ before c s', cs = before ++ [c] ∧ s.calls w before = some s' ∧ s'.call w c = none := by
  have hmake : ∀ call, Spec.Config.make (FileSite.throws w s) q call = .error (.threw cs) →
      ∃ before c s', cs = before ++ [c] ∧ s.calls w before = some s' ∧ s'.call w c = none := by
    intro call h
    unfold Spec.Config.make at h
    split at h
    · next ht =>
      obtain ⟨s', hs'⟩ := Option.isSome_iff_exists.1 hq
      injection h with h
      injection h with h
      refine ⟨q.2, call, s', h.symm, hs', ?_⟩
      unfold FileSite.throws at ht
      rw [hs'] at ht
      exact Option.isNone_iff_eq_none.1 ht
    · cases h
  cases c with
  | path d => cases hc
  | auth k => cases hc
  | restrict r => simp only [Spec.Config.perform] at hc; split at hc <;> cases hc
  | user n p => simp only [Spec.Config.perform] at hc; split at hc <;> cases hc
  | service r n => exact hmake _ hc
  | option r n v => exact hmake _ hc

/-- The command of the file that has thrown, and the commands before it, which were in order. -/
private theorem threw_last {w : World} {s : Site} (ls : List Bytes) : ∀ {q : Spec.Config.State} {cs : List Call},
    (s.calls w q.2).isSome → Spec.Config.performAll (FileSite.throws w s) q ls = .error (.threw cs) →
    ∃ before c s', cs = before ++ [c] ∧ s.calls w before = some s' ∧ s'.call w c = none := by
  induction ls with
  | nil => intro q cs _ h; cases h
  | cons l ls ih =>
    intro q cs hq h
    unfold Spec.Config.performAll at h
    split at h
    · cases h
    · exact ih hq h
    · split at h
      · next hc =>
        have h := Except.error.inj h
        subst h
        exact perform_threw hq hc
      · next hp => exact ih (FileSite.perform_calls hq hp) h

private theorem load_threw {w : World} {s : Site} {text : Bytes} {cs : List Call} (h : Config.load (FileSite.throws w s) text = .threw cs) :
    ∃ before c s', cs = before ++ [c] ∧ s.calls w before = some s' ∧ s'.call w c = none := by
  rw [Props.ServiceConfig.load_exact] at h
  split at h
  · next ho => subst h; exact threw_last _ rfl ho
  · split at h <;> cases h

private theorem configure_none {w : World} {library : Bytes → Library} {file : Bytes → File} (hf : Fits w library file) (now : Nat)
    (s : Site) (name : Bytes) : configure w library s name (file name) = none ↔ ((w.configs name).bind (s.configure w now)).isSome := by
  rw [hf.configs]
  cases file name with
  | missing => simp [configure]
  | locked => simp [configure]
  | text t =>
    simp only [configure, Option.bind_some, Site.configure]
    cases hl : Config.load (FileSite.throws w s) t with
    | finished a cs =>
      have := FileSite.load_calls hl
      simp [this]
    | badConfig cs => simp
    | threw cs =>
      obtain ⟨before, c, s', rfl, hb, hc⟩ := load_threw hl
      simp only [lastCall, List.getLast?_append, List.getLast?_singleton, Option.some_or, List.dropLast_concat, hb,
        Option.isSome_none, Bool.false_eq_true, iff_false]
      rw [call_none hf, hc]
      simp

/-- What is wrong with a configuration file, or with a command in it. -/
inductive BadConfig (w : World) (library : Bytes → Library) (fs : Fs) (name : Bytes) : File → Cause → Prop where
  | missing : BadConfig w library fs name .missing (.fault (.noConfig name))
  | locked : BadConfig w library fs name .locked (.fault (.configNotOpened name))
  /-- it is not written as it must be (C37 says how) -/
  | syntax {t : Bytes} {cs : List Call} : Config.load (FileSite.throws w { fs := fs }) t = .badConfig cs →
      BadConfig w library fs name (.text t) (.fault (.config name))
  /-- a command in it is wrong; the commands before it were in order -/
  | command {t : Bytes} {before : List Call} {c : Call} {f : Fault} :
      Config.load (FileSite.throws w { fs := fs }) t = .threw (before ++ [c]) →
      Wrong w library fs before c (subject f).1 (subject f).2 → BadConfig w library fs name (.text t) (.fault f)
  /-- a value in it is not a number -/
  | number {t : Bytes} {before : List Call} {c : Call} :
      Config.load (FileSite.throws w { fs := fs }) t = .threw (before ++ [c]) → NotANumber w before c →
      BadConfig w library fs name (.text t) (.other BAD_CAST)

/-- **C92 (configuration files; partial: `BadConfig.number`).** -/
theorem config_report_partial {w : World} {library : Bytes → Library} {fs : Fs} {name : Bytes} {file : File} {cause : Cause}
    (h : configure w library { fs := fs } name file = some cause) : BadConfig w library fs name file cause := by
  cases file with
  | missing => cases h; exact .missing
  | locked => cases h; exact .locked
  | text t =>
    unfold configure at h
    dsimp only at h
    cases hl : Config.load (FileSite.throws w { fs := fs }) t with
    | finished a cs => rw [hl] at h; cases h
    | badConfig cs => rw [hl] at h; cases h; exact .syntax hl
    | threw cs =>
      rw [hl] at h
      obtain ⟨before, c, s', rfl, hb, hc⟩ := load_threw hl
      simp only [lastCall, List.getLast?_append, List.getLast?_singleton, Option.some_or, List.dropLast_concat, hb] at h
      rcases command_report_partial hb h with ⟨rfl, hn⟩ | ⟨f, rfl, hw⟩
      · exact .number hl hn
      · exact .command hl hw

/-! ### piond -/

private theorem step_none {w : World} {library : Bytes → Library} {file : Bytes → File} (hf : Fits w library file) (starts : Site → Cause)
    (now : Nat) (s : Site) (d : Piond.Do) : step w library file starts s d = none ↔ (s.do w now d).isSome := by
  cases d with
  | loadService r p => exact load_none hf s r p
  | setOption r n v => exact option_none w s r n v
  | loadConfig name => exact configure_none hf now s name
  | start => show (if (s.start w).isSome then none else some (starts s)) = none ↔ (s.start w).isSome; cases s.start w <;> simp
  | _ => simp [step, Site.do]

private theorem steps_none {w : World} {library : Bytes → Library} {file : Bytes → File} (hf : Fits w library file) (starts : Site → Cause)
    (now : Nat) (ds : List Piond.Do) : ∀ s : Site, steps w library file starts now s ds = none ↔ (s.doAll w now ds).isSome := by
  induction ds with
  | nil => intro s; simp [steps, Site.doAll]
  | cons d ds ih =>
    intro s
    unfold steps Site.doAll
    have h := step_none hf starts now s d
    cases hd : s.do w now d with
    | none =>
      rw [hd] at h
      cases hc : step w library file starts s d with
      | none => rw [hc] at h; simp at h
      | some c => simp
    | some s' =>
      rw [hd] at h
      rw [h.2 rfl]
      exact ih s'

/-- **C92 (piond does not end silently).** If the command line is understood, then `piond` logs a fatal error exactly if it does
    not get its server running. -/
theorem fatal_iff {w : World} {library : Bytes → Library} {file : Bytes → File} (hf : Fits w library file) (args : Piond.World)
    (starts : Site → Cause) (place : Fault → Bytes × Nat) (now : Nat) (fs : Fs) (line : List Bytes) {o : Piond.Opts}
    (ho : Piond.commandLine args line = .ok o) :
    (fatal w args library file starts place now fs line).isSome ↔ piond w args now fs line = none := by
  unfold fatal piond
  rw [ho]
  have := steps_none hf starts now (Piond.serve o) { fs := fs }
  simp only [Option.isSome_map]
  rw [← Option.not_isSome_iff_eq_none, ← this, Option.isSome_iff_ne_none]

/-- The commands of the command line. -/
def commands (o : Piond.Opts) : List Call := .loadService o.resource o.service :: o.options.map fun nv => .setOption o.resource nv.1 nv.2

/-- What can be wrong when `piond` is set up. -/
inductive BadSetup (w : World) (library : Bytes → Library) (file : Bytes → File) (fs : Fs) (o : Piond.Opts) (starts : Site → Cause) :
    Cause → Prop where
  /-- one of the commands of the command line -/
  | command {before after : List Call} {c : Call} {f : Fault} : o.config = [] → commands o = before ++ c :: after →
      Wrong w library fs before c (subject f).1 (subject f).2 → BadSetup w library file fs o starts (.fault f)
  | number {before after : List Call} {c : Call} : o.config = [] → commands o = before ++ c :: after → NotANumber w before c →
      BadSetup w library file fs o starts (.other BAD_CAST)
  /-- the configuration file -/
  | config {cause : Cause} : o.config ≠ [] → BadConfig w library fs o.config (file o.config) cause →
      BadSetup w library file fs o starts cause
  /-- a service cannot be started -/
  | start {s : Site} : s.start w = none → BadSetup w library file fs o starts (starts s)

private def toDo : Call → Piond.Do
  | .loadService r p => .loadService r p
  | .setOption r n v => .setOption r n v
  | .addDirectory _ => .waitForShutdown

private theorem steps_calls {w : World} {library : Bytes → Library} {file : Bytes → File} (hf : Fits w library file) (starts : Site → Cause)
    (now : Nat) (rest : List Piond.Do) (cs : List Call) : ∀ (s : Site) (cause : Cause),
    steps w library file starts now s (cs.map toDo ++ rest) = some cause →
    (∃ before c after s', cs = before ++ c :: after ∧ s.calls w before = some s' ∧ call w library s' c = some cause) ∨
    ∃ s', s.calls w cs = some s' ∧ steps w library file starts now s' rest = some cause := by
  induction cs with
  | nil => intro s cause h; exact .inr ⟨s, rfl, h⟩
  | cons c cs ih =>
    intro s cause h
    rw [List.map_cons, List.cons_append] at h
    unfold steps at h
    have hstep : step w library file starts s (toDo c) = call w library s c := by cases c <;> rfl
    have hdo : s.do w now (toDo c) = s.call w c := by cases c <;> rfl
    rw [hstep, hdo] at h
    cases hc : call w library s c with
    | some x =>
      rw [hc] at h
      exact .inl ⟨[], c, cs, s, rfl, rfl, by rw [hc]; exact h⟩
    | none =>
      rw [hc] at h
      obtain ⟨s1, hs1⟩ := Option.isSome_iff_exists.1 ((call_none hf s c).1 hc)
      rw [hs1] at h
      rcases ih s1 cause h with ⟨before, c', after, s', rfl, hb, hcall⟩ | ⟨s', hs', hr⟩
      · exact .inl ⟨c :: before, c', after, s', rfl, by unfold Site.calls; rw [hs1]; exact hb, hcall⟩
      · exact .inr ⟨s', by unfold Site.calls; rw [hs1]; exact hs', hr⟩

private theorem steps_start {w : World} {library : Bytes → Library} {file : Bytes → File} {starts : Site → Cause} {now : Nat} {s : Site} {cause : Cause}
    (h : steps w library file starts now s [.start, .waitForShutdown] = some cause) : s.start w = none ∧ cause = starts s := by
  unfold steps at h
  show s.start w = none ∧ _
  have hs : step w library file starts s .start = if (s.start w).isSome then none else some (starts s) := rfl
  rw [hs] at h
  have hd : s.do w now .start = s.start w := rfl
  rw [hd] at h
  cases hx : s.start w with
  | none => rw [hx] at h; simp at h; exact ⟨rfl, h.symm⟩
  | some s' => rw [hx] at h; simp [steps, step, Site.do] at h

/-- **C92 (what piond says before it ends; partial: a value that is not a number, `BadSetup.number`, and what services throw
    when they are started).** The fatal error that is logged is about the first thing on the command line or in the configuration
    file that is wrong: it says what is wrong with it, and names it. -/
theorem fatal_report_partial {w : World} {library : Bytes → Library} {file : Bytes → File} (hf : Fits w library file) (args : Piond.World)
    (starts : Site → Cause) (place : Fault → Bytes × Nat) (now : Nat) (fs : Fs) (line : List Bytes) {o : Piond.Opts}
    (ho : Piond.commandLine args line = .ok o) {text : Bytes} (h : fatal w args library file starts place now fs line = some text) :
    ∃ cause, BadSetup w library file fs o starts cause ∧ text = (cause.thrown place).diagnostic.1 ∧
      ∀ f, cause = .fault f → Clean (subject f).2 →
        text = report (subject f).1 (subject f).2 ++ b! " [" ++ (place f).1 ++ b! ":" ++ toDec (place f).2 ++ b! "]" := by
  unfold fatal at h
  rw [ho] at h
  dsimp only at h
  obtain ⟨cause, hc, rfl⟩ := Option.map_eq_some_iff.1 h
  refine ⟨cause, ?_, rfl, fun f hfa hcl => by rw [hfa]; exact diagnostic_says_partial place f hcl⟩
  have hskip : ∀ ds : List Piond.Do, steps w library file starts now { fs := fs }
      ([.listen o.address o.port] ++ (if o.ssl then [.sslKey o.pem] else []) ++ ds) = steps w library file starts now { fs := fs } ds := by
    intro ds; cases o.ssl <;> rfl
  unfold Piond.serve at hc
  rw [List.append_assoc _ _ [_, _], hskip] at hc
  by_cases hcf : o.config = []
  · rw [if_pos hcf] at hc
    have hmap : (Piond.Do.loadService o.resource o.service :: o.options.map fun nv => Piond.Do.setOption o.resource nv.1 nv.2) =
        (commands o).map toDo := by
      simp only [commands, List.map_cons, List.map_map, toDo]
      rfl
    rw [hmap] at hc
    rcases steps_calls hf starts now _ _ _ _ hc with ⟨before, c, after, s', hcs, hb, hcall⟩ | ⟨s', -, hr⟩
    · rcases command_report_partial hb hcall with ⟨rfl, hn⟩ | ⟨f, rfl, hw⟩
      · exact .number hcf hcs hn
      · exact .command hcf hcs hw
    · obtain ⟨h1, rfl⟩ := steps_start hr
      exact .start h1
  · rw [if_neg hcf] at hc
    rw [List.singleton_append] at hc
    unfold steps at hc
    have hs : step w library file starts { fs := fs } (.loadConfig o.config) = configure w library { fs := fs } o.config (file o.config) := rfl
    rw [hs] at hc
    cases hx : configure w library { fs := fs } o.config (file o.config) with
    | some x =>
      rw [hx] at hc
      cases hc
      exact .config hcf (config_report_partial hx)
    | none =>
      rw [hx] at hc
      obtain ⟨s', -, hr⟩ := Option.bind_eq_some_iff.1 hc
      obtain ⟨h1, rfl⟩ := steps_start hr
      exact .start h1

/-- **C92 is violated by an option whose value has to be a number**: what is reported names neither the option nor its value. -/
theorem cast_unnamed (number : Bytes → Option Nat) (fs : Fs) (c : Cfg) (value : Bytes) (h : number value = none)
    (place : Fault → Bytes × Nat) : ∃ cause, fileOption number fs c (b! "max_chunk_size") value = some cause ∧
      (cause.thrown place).diagnostic.1 = BAD_CAST :=
  ⟨.other BAD_CAST, by
    rw [fileOption, if_neg (by decide), if_neg (by decide), if_neg (by decide), if_neg (by decide), if_pos rfl, h], by
    show cstr BAD_CAST = BAD_CAST
    decide +kernel⟩

/-! ### Handlers of requests -/

/-- **C92 (handlers; partial: `Clean`, and texts that are no UTF-8 or have control characters).** When a handler throws an
    exception of the library, the log has its text and where it was thrown, and its text can be read on the page that is sent. -/
theorem handler_report_partial (place : Fault → Bytes × Nat) (f : Fault) (hc : Clean (subject f).2)
    (hu : Spec.Xml.utf8 (report (subject f).1 (subject f).2) = true)
    (hn : Spec.Xml.noControls (report (subject f).1 (subject f).2) = true) :
    (handlerThrew (f.thrown place)).1 = b! "HTTP request handler: " ++
      (report (subject f).1 (subject f).2 ++ b! " [" ++ (place f).1 ++ b! ":" ++ toDec (place f).2 ++ b! "]") ∧
    (handlerThrew (f.thrown place)).2.code = 500 ∧
    ∃ pre post text, page (handlerThrew (f.thrown place)).2 = pre ++ text ++ post ∧ Spec.Xml.unescape text = report (subject f).1 (subject f).2 ∧
      pre = b! "<html><head>\n<title>500 Server Error</title>\n</head><body>\n<h1>Internal Server Error</h1>\n<p>The server encountered an internal error: <strong>" ∧
      post = b! "</strong></p>\n</body></html>\n" := by
  have hw : (f.thrown place).diagnostic.2.what.1 = report (subject f).1 (subject f).2 := by
    have := looks_same (f.thrown place) [.diagnostic] .what
    exact this.trans (what_says_partial place f hc)
  refine ⟨congrArg (b! "HTTP request handler: " ++ ·) (diagnostic_says_partial place f hc), rfl, _, _, escape (report (subject f).1 (subject f).2), ?_,
    XmlEncode.xml_encode_lossless _ hu hn, rfl, rfl⟩
  show page (serverError _) = _
  rw [hw]
  simp only [page, serverError, Spec.Writer.written, List.append_nil, List.append_assoc]

/-- It is sent like the other answers of the server (C56), so that the client receives it whole. -/
theorem handler_answer (t : Thrown) : Builtin (handlerThrew t).2 := .serverError _

/-! ### Examples -/

/-- Where statements are, for the examples. -/
def somewhere : Fault → Bytes × Nat := fun _ => (b! "a.cpp", 12)

/-- `FileService` can be loaded, `Old` has no function that destroys its objects, `Broken` cannot be loaded, and there are no
    others. -/
def libraries (p : Bytes) : Library :=
  if p = b! "FileService" then .ready
  else if p = b! "Old" then .found (b! "/opt/Old.so") { loads := true, symbols := [b! "pion_create_Old"] } none
  else if p = b! "Broken" then .found (b! "/opt/Broken.so") { loads := false, symbols := [] } (some (b! "libz.so: cannot open"))
  else .missing

/-- One configuration file can be read, one cannot. -/
def files (n : Bytes) : File :=
  if n = b! "a.conf" then .text (b! "service /a FileService\nservice /a Old\n")
  else if n = b! "b.conf" then .locked
  else if n = b! "c.conf" then .text (b! "service /a FileService\nservice /b\n")
  else .missing

def world : World :=
  { FileSite.exampleWorld with
    opens := fun p => (openLibrary p (libraries p)).isNone
    configs := fun n => match files n with | .text t => some t | _ => none }

theorem world_fits : Fits world libraries files := ⟨fun _ => rfl, fun _ => rfl⟩

/-- What is logged for a command line. -/
def logged (line : List Bytes) : Option Bytes :=
  fatal world { isAddress := fun _ => true, exists' := fun _ => true } libraries files (fun _ => .other []) somewhere 0 FileService.exampleFs line

example : logged [b! "-o", b! "directory=/var/./nowhere", b! "/a", b! "FileService"] =
    some (b! "directory not found: /var/nowhere [a.cpp:12]") := by decide +kernel
example : logged [b! "-o", b! "cache=7", b! "/a", b! "FileService"] = some (b! "bad argument: cache [a.cpp:12]") := by decide +kernel
example : logged [b! "/a", b! "Fileservice"] = some (b! "plugin not found: Fileservice [a.cpp:12]") := by decide +kernel
example : logged [b! "/a", b! "Broken"] = some (b! "unable to open plugin: Broken [a.cpp:12]") := by decide +kernel
example : logged [b! "/a", b! "Old"] = some (b! "missing plugin symbol: pion_destroy_Old [a.cpp:12]") := by decide +kernel
example : logged [b! "-c", b! "a.conf"] = some (b! "duplicate plugin: /a [a.cpp:12]") := by decide +kernel
example : logged [b! "-c", b! "b.conf"] = some (b! "unable to open file: b.conf [a.cpp:12]") := by decide +kernel
example : logged [b! "-c", b! "c.conf"] = some (b! "config parser error: c.conf [a.cpp:12]") := by decide +kernel
example : logged [b! "-o", b! "max_chunk_size=1k", b! "/a", b! "FileService"] = some BAD_CAST := by decide +kernel
example : logged [b! "-o", b! "directory=/var/www", b! "/a", b! "FileService"] = none := by decide +kernel

/-- When a file cannot be read, the client is told its path on the server. -/
example : (handlerThrew ((Fault.unread (b! "/var/www/<a>.txt")).thrown somewhere)).1 =
      b! "HTTP request handler: unable to read file: /var/www/<a>.txt [a.cpp:12]" ∧
    page (handlerThrew ((Fault.unread (b! "/var/www/<a>.txt")).thrown somewhere)).2 =
      b! "<html><head>\n<title>500 Server Error</title>\n</head><body>\n<h1>Internal Server Error</h1>\n<p>The server encountered an internal error: <strong>unable to read file: /var/www/&lt;a&gt;.txt</strong></p>\n</body></html>\n" := by
  refine ⟨?_, ?_⟩ <;> decide +kernel
example : Clean (subject (.unread (b! "/var/www/<a>.txt"))).2 ∧
    Spec.Xml.utf8 (report .fileNotRead (some (b! "/var/www/<a>.txt"))) = true ∧
    Spec.Xml.noControls (report .fileNotRead (some (b! "/var/www/<a>.txt"))) = true := by
  refine ⟨?_, ?_, ?_⟩
  · intro s hs; cases hs; decide
  · decide +kernel
  · decide +kernel

end Verif.Props.Errors
