import Verif.Spec.Piond
import Verif.Lemmas.Digits
import Mathlib.Tactic.SplitIfs
/-
C72: `piond` understands exactly the command lines of its usage text, and does what they say.
-/
namespace Verif.Props.Piond
open Verif.Piond Verif.Spec.Piond

/-- One option at a time. -/
private def apply (o : Opts) : Flag → Opts
  | .port v => { o with port := portNumber v }
  | .address v => { o with address := some v }
  | .config v => { o with config := v }
  | .dir v => { o with dirs := o.dirs ++ [v] }
  | .option n v => { o with options := o.options ++ [(n, v)] }
  | .ssl v => { o with ssl := true, pem := v }
  | .verbose => { o with verbose := true }

private def applyTail (o : Opts) : Tail → Opts
  | .nothing => o
  | .service s => { o with service := s }
  | .both r s => { o with resource := r, service := s }
  | .resourceVerbose r => { o with resource := r, verbose := true }

private theorem applyAll (fs : List Flag) : ∀ o : Opts,
    (fs.foldl apply o) = {
      port := (fs.filterMap Flag.port?).getLast?.getD o.port
      address := (fs.filterMap Flag.address?).getLast?.orElse fun _ => o.address
      config := (fs.filterMap Flag.config?).getLast?.getD o.config
      pem := (fs.filterMap Flag.ssl?).getLast?.getD o.pem
      ssl := fs.any (·.ssl?.isSome) || o.ssl
      verbose := fs.contains .verbose || o.verbose
      options := o.options ++ fs.filterMap Flag.option?
      dirs := o.dirs ++ fs.filterMap Flag.dir?
      resource := o.resource
      service := o.service } := by
  induction fs with
  | nil => intro o; simp
  | cons f fs ih =>
    intro o
    have last : ∀ {α : Type} (x y : α) (l : List α), (x :: l).getLast?.getD y = l.getLast?.getD x := by
      intro α x y l; rw [List.getLast?_cons]; rfl
    have last2 : ∀ {α : Type} (x : α) (y : Option α) (l : List α),
        ((x :: l).getLast?.orElse fun _ => y) = l.getLast?.orElse fun _ => some x := by
      intro α x y l; rw [List.getLast?_cons]; cases l.getLast? <;> rfl
    rw [List.foldl_cons, ih]
    cases f <;>
      simp only [apply, List.filterMap_cons, Flag.port?, Flag.address?, Flag.config?, Flag.ssl?, Flag.option?, Flag.dir?,
        List.any_cons, Option.isSome_some, Option.isSome_none, Bool.true_or, Bool.false_or, last, last2, List.append_assoc,
        List.cons_append, List.nil_append, List.contains_cons, Bool.or_true] <;> rfl

private theorem meaning_eq (fs : List Flag) (t : Tail) : meaning fs t = applyTail (fs.foldl apply {}) t := by
  rw [applyAll]
  cases t <;> simp [meaning, applyTail]

private theorem split_eq (v : Bytes) (n x : Bytes) : splitOption v = some (n, x) ↔ v = n ++ c! "=" :: x ∧ c! "=" ∉ n := by
  unfold splitOption
  constructor
  · intro h
    split at h
    · rename_i hm
      simp only [Option.some.injEq, Prod.mk.injEq] at h
      obtain ⟨rfl, rfl⟩ := h
      have h1 : v.dropWhile (· ≠ c! "=") = c! "=" :: (v.dropWhile (· ≠ c! "=")).drop 1 := by
        induction v with
        | nil => cases hm
        | cons a v ih =>
          by_cases e : a = c! "="
          · simp [e]
          · have : c! "=" ∈ v := by
              rcases List.mem_cons.mp hm with h | h
              · exact absurd h.symm e
              · exact h
            rw [List.dropWhile_cons_of_pos (by simpa using e)]
            exact ih this
      refine ⟨?_, fun h => ?_⟩
      · conv => lhs; rw [← List.takeWhile_append_dropWhile (p := (· ≠ c! "=")) (l := v)]
        rw [h1]
        simp
      · have : ∀ l : Bytes, c! "=" ∉ l.takeWhile (· ≠ c! "=") := by
          intro l
          induction l with
          | nil => simp
          | cons a l ih =>
            by_cases e : a = c! "="
            · simp [e]
            · rw [List.takeWhile_cons_of_pos (by simpa using e)]
              intro hh
              rcases List.mem_cons.mp hh with h | h
              · exact e h.symm
              · exact ih h
        exact this v h
    · cases h
  · rintro ⟨rfl, hn⟩
    rw [if_pos (by simp)]
    have : ∀ m : Bytes, c! "=" ∉ m → (m ++ c! "=" :: x).takeWhile (· ≠ c! "=") = m ∧
        (m ++ c! "=" :: x).dropWhile (· ≠ c! "=") = c! "=" :: x := by
      intro m
      induction m with
      | nil => intro _; simp
      | cons a m ih =>
        intro h
        have e : a ≠ c! "=" := fun e => h (by simp [e])
        have := ih (fun hh => h (List.mem_cons_of_mem _ hh))
        rw [List.cons_append, List.takeWhile_cons_of_pos (by simpa using e), List.dropWhile_cons_of_pos (by simpa using e)]
        exact ⟨by rw [this.1], this.2⟩
    rw [(this n hn).1, (this n hn).2]
    rfl

private theorem parse_flag (w : World) (o : Opts) (f : Flag) (hf : f.Good w) (rest : List Bytes) :
    parse w o (f.args ++ rest) = parse w (apply o f) rest := by
  cases f with
  | port v => rw [Flag.args]; simp only [List.cons_append, List.nil_append]; rw [parse, if_pos (by decide), if_pos rfl]; rfl
  | address v =>
    rw [Flag.args]; simp only [List.cons_append, List.nil_append]
    rw [parse, if_pos (by decide), if_neg (by decide), if_pos rfl, if_pos (show _ = true from hf)]; rfl
  | config v =>
    rw [Flag.args]; simp only [List.cons_append, List.nil_append]
    rw [parse, if_pos (by decide), if_neg (by decide), if_neg (by decide), if_pos rfl]; rfl
  | dir v =>
    rw [Flag.args]; simp only [List.cons_append, List.nil_append]
    rw [parse, if_pos (by decide), if_neg (by decide), if_neg (by decide), if_neg (by decide), if_pos rfl, if_pos (show _ = true from hf)]; rfl
  | option n v =>
    rw [Flag.args]; simp only [List.cons_append, List.nil_append]
    rw [parse, if_pos (by decide), if_neg (by decide), if_neg (by decide), if_neg (by decide), if_neg (by decide), if_pos rfl,
      (split_eq _ n v).mpr ⟨rfl, hf⟩]
    rfl
  | ssl v =>
    rw [Flag.args]; simp only [List.cons_append, List.nil_append]
    rw [parse, if_pos (by decide), if_neg (by decide), if_neg (by decide), if_neg (by decide), if_neg (by decide),
      if_neg (by decide), if_pos rfl]
    rfl
  | verbose =>
    rw [Flag.args]; simp only [List.cons_append, List.nil_append]
    cases rest with
    | nil => rw [parse, parse]; rfl
    | cons v rest =>
      rw [parse, if_pos (by decide), if_neg (by decide), if_neg (by decide), if_neg (by decide), if_neg (by decide),
        if_neg (by decide), if_neg (by decide), if_pos rfl]
      rfl

private theorem parse_flags (w : World) (fs : List Flag) (hfs : ∀ f ∈ fs, f.Good w) (rest : List Bytes) : ∀ o,
    parse w o (fs.flatMap Flag.args ++ rest) = parse w (fs.foldl apply o) rest := by
  induction fs with
  | nil => intro o; rfl
  | cons f fs ih =>
    intro o
    rw [List.flatMap_cons, List.append_assoc, parse_flag w o f (hfs f List.mem_cons_self),
      ih (fun x hx => hfs x (List.mem_cons_of_mem _ hx)), List.foldl_cons]

private theorem parse_tail (w : World) (o : Opts) (t : Tail) (ht : t.Good) : parse w o t.args = .ok (applyTail o t) := by
  cases t with
  | nothing => rw [Tail.args, parse]; rfl
  | service s => rw [Tail.args, parse, if_neg ht]; rfl
  | both r s => rw [Tail.args, parse, if_neg ht.1, if_pos rfl, parse, if_neg ht.2]; rfl
  | resourceVerbose r => rw [Tail.args, parse, if_neg ht, if_pos rfl, parse, if_pos (by decide), if_pos rfl]; rfl

private theorem parse_sound (w : World) (o : Opts) (args : List Bytes) : ∀ o', parse w o args = .ok o' →
    ∃ (fs : List Flag) (t : Tail), (∀ f ∈ fs, f.Good w) ∧ t.Good ∧ args = fs.flatMap Flag.args ++ t.args ∧ o' = applyTail (fs.foldl apply o) t := by
  have cons : ∀ {o o' rest} (f : Flag), f.Good w → (∃ (fs : List Flag) (t : Tail), (∀ f ∈ fs, f.Good w) ∧ t.Good ∧
      rest = fs.flatMap Flag.args ++ t.args ∧ o' = applyTail (fs.foldl apply (apply o f)) t) →
      ∃ (fs : List Flag) (t : Tail), (∀ f ∈ fs, f.Good w) ∧ t.Good ∧ f.args ++ rest = fs.flatMap Flag.args ++ t.args ∧
        o' = applyTail (fs.foldl apply o) t := by
    rintro o o' rest f hf ⟨fs, t, h1, h2, h3, h4⟩
    refine ⟨f :: fs, t, fun x hx => ?_, h2, by rw [h3, List.flatMap_cons, List.append_assoc], h4⟩
    rcases List.mem_cons.mp hx with rfl | hx
    · exact hf
    · exact h1 x hx
  fun_induction parse w o args with
  | case1 o => intro o' h; cases h; exact ⟨[], .nothing, by simp, trivial, rfl, rfl⟩
  | case2 o h1 => intro o' h; cases h; exact ⟨[.verbose], .nothing, by simp [Flag.Good], trivial, rfl, rfl⟩
  | case3 => intro o' h; cases h
  | case4 o a h1 => intro o' h; cases h; exact ⟨[], .service a, by simp, h1, rfl, rfl⟩
  | case5 o v rest _ ih => intro o' h; exact cons (.port v) trivial (ih o' h)
  | case6 o v rest hv _ _ ih => intro o' h; exact cons (.address v) hv (ih o' h)
  | case7 => intro o' h; cases h
  | case8 o v rest _ _ _ ih => intro o' h; exact cons (.config v) trivial (ih o' h)
  | case9 o v rest hv _ _ _ _ ih => intro o' h; exact cons (.dir v) hv (ih o' h)
  | case10 => intro o' h; cases h
  | case11 => intro o' h; cases h
  | case12 o v rest nv hs _ _ _ _ _ ih =>
    intro o' h
    obtain ⟨n, x⟩ := nv
    obtain ⟨h1, h2⟩ := (split_eq _ _ _).mp hs
    have := cons (.option n x) h2 (ih o' h)
    rw [h1]
    exact this
  | case13 o v rest _ _ _ _ _ _ ih => intro o' h; exact cons (.ssl v) trivial (ih o' h)
  | case14 o v rest _ _ _ _ _ _ _ ih => intro o' h; exact cons .verbose trivial (ih o' h)
  | case15 => intro o' h; cases h
  | case16 o a v ha ih =>
    intro o' h
    by_cases hv : v.head? = some (c! "-")
    · rw [parse, if_pos hv] at h
      split at h
      · rename_i hvv
        cases h
        subst hvv
        exact ⟨[], .resourceVerbose a, by simp, ha, rfl, rfl⟩
      · cases h
    · rw [parse, if_neg hv] at h
      cases h
      exact ⟨[], .both a v, by simp, ⟨ha, hv⟩, rfl, rfl⟩
  | case17 => intro o' h; cases h

/-- C72: a command line is understood exactly if it consists of options that make sense and of RESOURCE and WEBSERVICE,
    and a service is named by these or by a file; it then means what it says. -/
theorem understood (w : World) (args : List Bytes) (o : Opts) : commandLine w args = .ok o ↔
    ∃ (fs : List Flag) (t : Tail), (∀ f ∈ fs, f.Good w) ∧ t.Good ∧ args = fs.flatMap Flag.args ++ t.args ∧ o = meaning fs t ∧
      (o.config ≠ [] ∨ (o.resource ≠ [] ∧ o.service ≠ [])) := by
  unfold commandLine
  constructor
  · intro h
    split at h
    · rename_i o' hp
      split at h
      · cases h
      · rename_i hne
        cases h
        obtain ⟨fs, t, h1, h2, h3, h4⟩ := parse_sound w {} args o hp
        refine ⟨fs, t, h1, h2, h3, by rw [meaning_eq]; exact h4, ?_⟩
        by_cases hc : o.config = []
        · exact .inr ⟨fun h => hne ⟨hc, .inl h⟩, fun h => hne ⟨hc, .inr h⟩⟩
        · exact .inl hc
    · rename_i hno
      exact absurd h (hno o)
  · rintro ⟨fs, t, h1, h2, rfl, rfl, h5⟩
    have : parse w {} (fs.flatMap Flag.args ++ t.args) = .ok (meaning fs t) := by
      rw [parse_flags w fs h1, parse_tail w _ t h2, meaning_eq]
    rw [this]
    simp only
    rw [if_neg]
    rintro ⟨h6, h7⟩
    rcases h5 with h5 | h5
    · exact h5 h6
    · rcases h7 with h7 | h7
      · exact h5.1 h7
      · exact h5.2 h7

/-- A world with an address and a directory. -/
def exampleWorld : World := ⟨fun a => a = b! "127.0.0.1", fun d => d = b! "/usr/lib/pion"⟩

example : commandLine exampleWorld [b! "-p", b! "80", b! "-o", b! "directory=/a=b", b! "-v", b! "-o", b! "file=x", b! "/f", b! "FileService"] =
    .ok { port := 80, verbose := true, options := [(b! "directory", b! "/a=b"), (b! "file", b! "x")],
          resource := b! "/f", service := b! "FileService" } := by decide +kernel
example : commandLine exampleWorld [b! "-i", b! "127.0.0.1", b! "-c", b! "pion.conf"] =
    .ok { address := some (b! "127.0.0.1"), config := b! "pion.conf" } := by decide +kernel
example : commandLine exampleWorld [b! "/f", b! "FileService", b! "-v"] = .usage := by decide +kernel

/-- C72: what is not understood is answered with the usage, if all addresses and directories in it are in order. -/
theorem otherwise_usage (w : World) (ha : ∀ v, w.isAddress v = true) (hd : ∀ v, w.exists' v = true) (args : List Bytes)
    (h : ∀ o, commandLine w args ≠ .ok o) : commandLine w args = .usage := by
  have key : ∀ o, (∃ o', parse w o args = .ok o') ∨ parse w o args = .usage := by
    intro o
    clear h
    fun_induction parse w o args <;> simp_all
  unfold commandLine at h ⊢
  rcases key {} with ⟨o', h1⟩ | h1
  · rw [h1] at h ⊢
    simp only at h ⊢
    split at h
    · rename_i hc; rw [if_pos hc]
    · exact absurd rfl (h o')
  · rw [h1]

/-- C72: then one service is loaded and gets the options in the order of the command line, or the services of the file
    are loaded; the server is started after that, on the port and address given. -/
theorem served (fs : List Flag) (t : Tail) : serve (meaning fs t) =
    .listen (meaning fs t).address (meaning fs t).port ::
    ((if (meaning fs t).ssl then [.sslKey (meaning fs t).pem] else []) ++
     (if (meaning fs t).config = [] then
        .loadService (meaning fs t).resource (meaning fs t).service ::
        (fs.filterMap Flag.option?).map (fun nv => .setOption (meaning fs t).resource nv.1 nv.2)
      else [.loadConfig (meaning fs t).config]) ++ [.start, .waitForShutdown]) := by
  simp [serve, show (meaning fs t).options = fs.filterMap Flag.option? from rfl]

private theorem takeWhile_all {p : UInt8 → Bool} {l : Bytes} (h : ∀ c ∈ l, p c = true) : l.takeWhile p = l := by
  induction l with
  | nil => rfl
  | cons a l ih => rw [List.takeWhile_cons_of_pos (h a List.mem_cons_self), ih fun c hc => h c (List.mem_cons_of_mem _ hc)]

private theorem strtoul10_toDec (n : Nat) : strtoul10 (toDec n) = min n (2 ^ 64 - 1) := by
  have hd := toDec_isDigit n
  have hv := decVal_toDec n
  have hne := toDec_ne_nil n
  obtain ⟨c, r, hc⟩ := List.exists_cons_of_ne_nil hne
  have h1 : isDigit c = true := hd c (by rw [hc]; exact List.mem_cons_self)
  have h2 : isSpaceC c = false ∧ c ≠ c! "-" ∧ c ≠ c! "+" := by
    have : ∀ c : UInt8, isDigit c = true → isSpaceC c = false ∧ c ≠ c! "-" ∧ c ≠ c! "+" := by decide +kernel
    exact this c h1
  unfold strtoul10
  rw [hc, List.dropWhile_cons_of_neg (by simp [h2.1])]
  simp only [if_neg h2.2.1, if_neg h2.2.2]
  rw [← hc, takeWhile_all hd, hv]

/-- C72: a port that is written in decimal is the one that is used. -/
theorem port_read {n : Nat} (h0 : 0 < n) (h1 : n < 65536) : portNumber (toDec n) = UInt16.ofNat n := by
  have e : min n (2 ^ 64 - 1) = n := by omega
  have hne : UInt16.ofNat n ≠ 0 := by
    intro h
    have := congrArg UInt16.toNat h
    simp at this
    omega
  rw [portNumber, strtoul10_toDec, e, if_neg hne]

/-- What `strtoul` makes of a text with a number: white space, perhaps a sign, digits, and something that is no digit. -/
private theorem strtoul10_text {ws sign d x : Bytes} (hw : ∀ c ∈ ws, isSpaceC c = true)
    (hs : sign = [] ∨ sign = b! "+" ∨ sign = b! "-") (hne : d ≠ []) (hd : ∀ c ∈ d, isDigit c = true) (hx : ∀ c ∈ x.head?, isDigit c = false) :
    strtoul10 (ws ++ sign ++ d ++ x) = if sign = b! "-" then (if decVal d < 2 ^ 64 then (2 ^ 64 - decVal d) % 2 ^ 64 else 2 ^ 64 - 1)
      else min (decVal d) (2 ^ 64 - 1) := by
  have hdrop : ∀ (y : Bytes), (∀ c ∈ y.head?, isSpaceC c = false) → (ws ++ y).dropWhile isSpaceC = y := by
    intro y hy
    rw [List.dropWhile_append_of_pos hw]
    cases y with
    | nil => rfl
    | cons c y => rw [List.dropWhile_cons_of_neg (by simp [hy c (by simp)])]
  have htake : (d ++ x).takeWhile isDigit = d := by
    rw [List.takeWhile_append_of_pos hd]
    cases x with
    | nil => simp
    | cons c x => rw [List.takeWhile_cons_of_neg (by simp [hx c (by simp)])]; simp
  obtain ⟨c, r, rfl⟩ := List.exists_cons_of_ne_nil hne
  have h2 : isSpaceC c = false ∧ c ≠ c! "-" ∧ c ≠ c! "+" := by
    have : ∀ c : UInt8, isDigit c = true → isSpaceC c = false ∧ c ≠ c! "-" ∧ c ≠ c! "+" := by decide +kernel
    exact this c (hd c (by simp))
  unfold strtoul10
  rcases hs with rfl | rfl | rfl
  · rw [List.append_nil, List.append_assoc, hdrop _ (by simpa using h2.1)]
    simp only [List.cons_append, if_neg h2.2.1, if_neg h2.2.2]
    rw [← List.cons_append, htake, if_neg (by decide)]
  · have hh : ∀ e ∈ (b! "+" ++ (c :: r ++ x)).head?, isSpaceC e = false := by
      intro e he
      obtain rfl : c! "+" = e := by simpa using he
      decide
    rw [List.append_assoc, List.append_assoc, hdrop _ hh]
    simp only [List.cons_append, List.nil_append]
    rw [← List.cons_append, htake, if_neg (by decide), if_pos trivial, if_neg (by decide)]
  · have hh : ∀ e ∈ (b! "-" ++ (c :: r ++ x)).head?, isSpaceC e = false := by
      intro e he
      obtain rfl : c! "-" = e := by simpa using he
      decide
    rw [List.append_assoc, List.append_assoc, hdrop _ hh]
    simp only [List.cons_append, List.nil_append]
    rw [← List.cons_append, htake, if_pos trivial, if_pos trivial]

/-- C72, what any text with a number at its beginning means as a port: the number modulo 65536, of a negative number its
    complement, of one that does not fit into 64 bits 65535; 0 is taken for 8080, and what follows the number is ignored. -/
theorem port_meaning {ws sign d x : Bytes} (hw : ∀ c ∈ ws, isSpaceC c = true)
    (hs : sign = [] ∨ sign = b! "+" ∨ sign = b! "-") (hne : d ≠ []) (hd : ∀ c ∈ d, isDigit c = true) (hx : ∀ c ∈ x.head?, isDigit c = false) :
    (portNumber (ws ++ sign ++ d ++ x)).toNat =
      let p := if 2 ^ 64 ≤ decVal d then 65535 else if sign = b! "-" then (65536 - decVal d % 65536) % 65536 else decVal d % 65536
      if p = 0 then 8080 else p := by
  have key : ∀ n : Nat, (if UInt16.ofNat n = 0 then (8080 : UInt16) else UInt16.ofNat n).toNat = if n % 65536 = 0 then 8080 else n % 65536 := by
    intro n
    have e : (UInt16.ofNat n).toNat = n % 65536 := by simp
    by_cases h : n % 65536 = 0
    · rw [if_pos h, if_pos (UInt16.toNat_inj.mp (by rw [e, h]; rfl))]; rfl
    · rw [if_neg h, if_neg (fun h' => h (by rw [← e, h']; rfl)), e]
  rw [portNumber, key, strtoul10_text hw hs hne hd hx]
  generalize decVal d = v
  dsimp only
  have hm : (if sign = b! "-" then (if v < 2 ^ 64 then (2 ^ 64 - v) % 2 ^ 64 else 2 ^ 64 - 1) else min v (2 ^ 64 - 1)) % 65536 =
      if 2 ^ 64 ≤ v then 65535 else if sign = b! "-" then (65536 - v % 65536) % 65536 else v % 65536 := by
    split_ifs <;> omega
  rw [hm]

example : portNumber (b! " -18446744073709551616 ") = 65535 ∧ portNumber (b! "-65456") = 80 := by decide +kernel

/-- Finding: larger numbers are taken modulo 65536, and what is no port is 8080, without a message. -/
theorem port_wraps : portNumber (b! "65616") = 80 ∧ portNumber (b! "65536") = 8080 ∧ portNumber (b! "http") = 8080 ∧
    portNumber (b! "80x") = 80 ∧ portNumber (b! "-1") = 65535 := by decide +kernel

/-- Finding: options given with a configuration file are ignored. -/
theorem options_ignored_with_config (fs : List Flag) (t : Tail) (h : (meaning fs t).config ≠ []) (r n v : Bytes) :
    Do.setOption r n v ∉ serve (meaning fs t) := by
  rw [served, if_neg h]
  split <;> simp

example : commandLine exampleWorld [b! "-c", b! "pion.conf", b! "-o", b! "directory=/srv"] =
    .ok { config := b! "pion.conf", options := [(b! "directory", b! "/srv")] } := by decide +kernel

/-- Finding: an address that is none is not answered with the usage: the exception leaves `main`. -/
theorem bad_address_throws (w : World) {v : Bytes} (hv : w.isAddress v = false) (rest : List Bytes) :
    commandLine w (b! "-i" :: v :: rest) = .thrown := by
  rw [commandLine, parse, if_pos (by decide), if_neg (by decide), if_pos rfl, if_neg (by simp [hv])]

example : exampleWorld.isAddress (b! "localhost") = false := by decide +kernel

end Verif.Props.Piond
