import Verif.Model.FileAnswers
import Verif.Lemmas.FileService
/-
The name of the file in the path the service keeps for it.
-/
namespace Verif.FileAnswers
open Verif.FileService Verif.Path Verif.Spec.Path Verif.Spec.FileService

/-! ### What follows the last slash -/

theorem afterLast_plain {c : UInt8} {s : Bytes} (h : c ∉ s) : afterLast c s = s := by
  unfold afterLast
  have e := List.takeWhile_append_of_pos (p := fun x => decide (x ≠ c)) (l₁ := s.reverse) (l₂ := []) (by
    intro x hx
    simp only [decide_eq_true_eq, ne_eq]
    rintro rfl
    exact h (List.mem_reverse.1 hx))
  rw [List.append_nil] at e
  rw [e]
  simp

theorem afterLast_append (c : UInt8) (pre : Bytes) {s : Bytes} (h : c ∉ s) : afterLast c (pre ++ c :: s) = s := by
  unfold afterLast
  rw [List.reverse_append, List.reverse_cons, List.append_assoc, List.takeWhile_append_of_pos]
  · simp
  · intro x hx
    simp only [decide_eq_true_eq, ne_eq]
    rintro rfl
    exact h (List.mem_reverse.1 hx)

theorem afterLast_notMem (c : UInt8) (s : Bytes) : c ∉ afterLast c s := by
  intro h
  have key : ∀ l : Bytes, c ∉ l.takeWhile (· ≠ c) := by
    intro l
    induction l with
    | nil => simp
    | cons a l ih =>
      rw [List.takeWhile_cons]
      split
      · rename_i ha
        simp only [ne_eq, decide_eq_true_eq] at ha
        simp only [List.mem_cons, not_or]
        exact ⟨Ne.symm ha, ih⟩
      · simp
  exact key _ (List.mem_reverse.1 h)

/-- A text is what precedes the last `c`, `c` and what follows it, or there is no `c` in it. -/
theorem afterLast_split (c : UInt8) (s : Bytes) : s = afterLast c s ∨ ∃ pre, s = pre ++ c :: afterLast c s := by
  induction s with
  | nil => exact .inl rfl
  | cons a s ih =>
    by_cases h : c ∈ s
    · rcases ih with ih | ⟨pre, ih⟩
      · exact absurd (ih ▸ h) (afterLast_notMem c s)
      · right
        have e := afterLast_append c (a :: pre) (afterLast_notMem c s)
        rw [List.cons_append, ← ih] at e
        exact ⟨a :: pre, by rw [e, List.cons_append, ← ih]⟩
    · by_cases ha : a = c
      · subst ha
        right
        have e := afterLast_append a [] h
        rw [List.nil_append] at e
        exact ⟨[], by rw [e]; rfl⟩
      · left
        exact (afterLast_plain (by simp [Ne.symm ha, h])).symm

theorem fileName_name {n : Bytes} (h : slash ∉ n) : fileName n = n := afterLast_plain h

theorem fileName_append (p : Bytes) {n : Bytes} (h : IsName n) : fileName (append p n) = n := by
  unfold append
  rw [if_neg h.1, if_neg (by
    obtain ⟨a, n, rfl⟩ := List.exists_cons_of_ne_nil h.1
    have := h.2
    simp only [List.mem_cons, not_or] at this
    simpa using Ne.symm this.1)]
  split
  · rename_i hp
    rcases hp with rfl | hp
    · exact fileName_name h.2
    · obtain ⟨p', rfl⟩ := List.getLast?_eq_some_iff.mp hp
      rw [List.append_assoc]
      exact afterLast_append slash p' h.2
  · exact afterLast_append slash p h.2

/-! ### Normalising keeps the last name -/

theorem normLoop_last {n : Bytes} (h2 : n ≠ dotDotName) (cs : List Bytes) : ∀ (first : Bool) (temp : List Bytes),
    ∃ l, normLoop first temp (cs ++ [n]) = l ++ [n] := by
  induction cs with
  | nil =>
    intro first temp
    rw [List.nil_append, normLoop, if_neg (by simp), if_neg (fun h => h2 h.1)]
    exact ⟨temp, rfl⟩
  | cons a cs ih =>
    intro first temp
    rw [List.cons_append, normLoop]
    split
    · exact ih _ _
    · split
      · exact ih _ _
      · exact ih _ _

theorem names_fileName {p : Bytes} (h : fileName p ≠ []) : ∃ l, names p = l ++ [fileName p] := by
  have h0 : slash ∉ fileName p := afterLast_notMem _ _
  have e : names (fileName p) = [fileName p] := by
    have := namesFrom_name (fileName p) [] h0 []
    rw [List.append_nil, List.nil_append] at this
    unfold names
    rw [this, namesFrom, if_neg h]
  rcases afterLast_split (c! "/") p with hp | ⟨pre, hp⟩
  · exact ⟨[], by conv => lhs; rw [hp]
                  exact e⟩
  · refine ⟨names pre, ?_⟩
    conv => lhs; rw [hp]
    rw [show (c! "/") = slash from rfl, names_append_slash]
    exact congrArg _ e

theorem fileName_normalize {p : Bytes} (h : Plain (fileName p)) : fileName (normalize p) = fileName p := by
  have hne : p ≠ [] := by rintro rfl; exact h.1 rfl
  obtain ⟨l, hl⟩ := names_fileName h.1
  have hlast : p.getLast? ≠ some slash := by
    intro hh
    obtain ⟨p', hp'⟩ := List.getLast?_eq_some_iff.mp hh
    have : fileName p = [] := by rw [hp']; exact afterLast_append slash p' (by simp)
    exact h.1 this
  have hel : elements p = ((if p.head? = some slash then [rootName] else []) ++ l) ++ [fileName p] := by
    unfold elements
    rw [hl, if_neg (c := p.getLast? = some slash ∧ _) (fun hh => hlast hh.1)]
    simp
  unfold normalize
  rw [if_neg hne, hel]
  dsimp only
  obtain ⟨l', hl'⟩ := normLoop_last h.2.2.2 ((if p.head? = some slash then [rootName] else []) ++ l) true []
  rw [hl', if_neg (by simp)]
  unfold join
  rw [List.foldl_append]
  exact fileName_append _ ⟨h.1, h.2.1⟩

/-! ### The entries of the cache -/

/-- What is asked for: the relative path, or the configured file if there is none. -/
def asked (c : Cfg) (rel : Bytes) : Bytes := if rel = [] then c.file else rel

/-- The path ends with the name asked for, if that is a name. -/
def Named (c : Cfg) (rel path : Bytes) : Prop := Plain (fileName (asked c rel)) → fileName path = fileName (asked c rel)

theorem fileName_append_any (p q : Bytes) (h : fileName q ≠ []) : fileName (append p q) = fileName q := by
  have hq : q ≠ [] := by rintro rfl; exact h rfl
  have h0 : slash ∉ fileName q := afterLast_notMem _ _
  rcases afterLast_split (c! "/") q with hp | ⟨pre, hp⟩
  · have hq' : fileName q = q := hp.symm
    rw [hq'] at h0 ⊢
    exact fileName_append p ⟨hq, h0⟩
  · have key : ∀ x : Bytes, fileName (x ++ q) = fileName q := by
      intro x
      have hp' : q = pre ++ slash :: fileName q := hp
      conv => lhs; rw [hp', ← List.append_assoc]
      exact afterLast_append slash (x ++ pre) h0
    unfold append
    rw [if_neg hq]
    split
    · exact key p
    · split
      · exact key p
      · rw [List.append_cons]; exact key _

theorem named_target {c : Cfg} {rel p : Bytes} (h : target c rel = .path p) : Named c rel p := by
  unfold target at h
  unfold Named asked
  split at h
  · rename_i hr
    rw [if_pos hr]
    split at h
    · cases h
    · split at h
      · cases h; exact fileName_normalize
      · cases h
  · rename_i hr
    rw [if_neg hr]
    split at h
    · cases h
    · simp only [] at h
      split at h
      · cases h
        intro hp
        have e := fileName_append_any c.directory rel hp.1
        rw [fileName_normalize (by rw [e]; exact hp), e]
      · cases h

theorem named_scan {c : Cfg} (hd : DirOk c) (h0 : c.directory ≠ []) {ns : List Bytes} (hn : ns ≠ []) (hns : ∀ n ∈ ns, IsName n) :
    Named c ((ns.foldl append c.directory).drop (c.directory.length + 1)) (ns.foldl append c.directory) := by
  rw [foldl_append_absolute ns hns _ h0 hd]
  obtain ⟨n, ns, rfl⟩ := List.exists_cons_of_ne_nil hn
  have hnn := hns n List.mem_cons_self
  have e : (c.directory ++ absolute (n :: ns)).drop (c.directory.length + 1) = n ++ absolute ns := by
    rw [absolute_cons, List.append_cons, List.drop_append_of_le_length (by simp)]
    simp
  have hne : n ++ absolute ns ≠ [] := by simp [hnn.1]
  rw [e]
  unfold Named asked
  rw [if_neg hne]
  intro _
  have key : ∀ (l : List Bytes) (m : Bytes), IsName m → (∀ x ∈ l, IsName x) → ∃ k, IsName k ∧
      fileName (m ++ absolute l) = k ∧ ∀ pre, fileName (pre ++ slash :: (m ++ absolute l)) = k := by
    intro l
    induction l with
    | nil =>
      intro m hm _
      have e : m ++ absolute [] = m := by simp [absolute]
      rw [e]
      exact ⟨m, hm, fileName_name hm.2, fun pre => afterLast_append slash pre hm.2⟩
    | cons a l ih =>
      intro m hm hl
      obtain ⟨k, h1, h2, h3⟩ := ih a (hl a List.mem_cons_self) (fun x hx => hl x (List.mem_cons_of_mem _ hx))
      rw [absolute_cons]
      refine ⟨k, h1, h3 m, fun pre => ?_⟩
      have := h3 (pre ++ slash :: m)
      simpa using this
  obtain ⟨k, -, h2, h3⟩ := key ns n hnn (fun x hx => hns x (List.mem_cons_of_mem _ hx))
  rw [h2, absolute_cons]
  exact h3 c.directory

def AllNamed (c : Cfg) (m : Cache) : Prop := ∀ k e, (k, e) ∈ m → Named c k e.path

private theorem AllNamed.put {c : Cfg} {m : Cache} (h : AllNamed c m) {k : Bytes} {d : DiskFile} (hd : Named c k d.path) :
    AllNamed c (m.put k d) := by
  intro k' e hm
  unfold Cache.put at hm
  obtain ⟨x, hx, he⟩ := List.mem_map.mp hm
  split at he
  · cases he; exact hd
  · subst he; exact h k' e hx

private theorem AllNamed.insert {c : Cfg} {m : Cache} (h : AllNamed c m) {k : Bytes} {d : DiskFile} (hd : Named c k d.path) :
    AllNamed c (m.insert k d) := by
  unfold Cache.insert
  split
  · exact h
  · intro k' e hm
    rcases List.mem_append.mp hm with hm | hm
    · exact h k' e hm
    · cases List.mem_singleton.mp hm; exact hd

theorem refresh_path {c : Cfg} {fs : Fs} {e e' : DiskFile} {ok updated : Bool} (h : refresh c fs e = (e', ok, updated)) :
    e'.path = e.path := by
  unfold refresh at h
  split at h
  · split at h
    · rename_i e1 hu
      cases h; exact update_any hu
    · rename_i e1 hu
      split at h
      · cases hr : e1.read c fs with
        | mk e2 ok2 => rw [hr] at h; cases h; exact (read_spec hr).1.trans (update_any hu)
      · cases h; exact update_any (d' := e1) hu
  · split at h
    · unfold DiskFile.checkUpdated at h
      split at h
      · split at h
        · cases h; rfl
        · simp only [] at h
          rename_i f _ _
          cases hr : ({ e with size := f.content.length, mtime := f.mtime, lastModified := c.date f.mtime } : DiskFile).read c fs with
          | mk e2 ok2 => rw [hr] at h; cases h; exact (read_spec hr).1
      · cases h; rfl
    · cases h; rfl

/-- The path of the file in an answer, given the one of the request: that of the entry if there is one. -/
theorem get_path {c : Cfg} {s : St} (r : Req) (rel path : Bytes) (h : AllNamed c s.cache) (hp : Named c rel path) :
    AllNamed c (FileService.get c s r rel path).2.cache ∧
    ∀ d, (FileService.get c s r rel path).1 = .file d → Named c rel d.path := by
  have hun : AllNamed c (getUncached c s r rel path).2.cache ∧ ∀ d, (getUncached c s r rel path).1 = .file d → Named c rel d.path := by
    unfold getUncached
    split
    · exact ⟨h, fun d hd => by cases hd⟩
    · split
      · exact ⟨h, fun d hd => by cases hd⟩
      · rename_i d hu
        have hd : Named c rel d.path := by rw [update_any hu]; exact hp
        split
        · rename_i d1 ha
          have hd1 : Named c rel d1.path := by rw [answer_file ha]; exact hd
          split
          · split
            · split
              · exact ⟨h, fun d hd => by cases hd⟩
              · rename_i d2 hr
                have hd2 : Named c rel d2.path := by rw [(read_spec hr).1]; exact hd1
                exact ⟨h.insert hd2, fun d hd => by cases hd; exact hd2⟩
            · exact ⟨h.insert hd1, fun d hd => by cases hd; exact hd1⟩
          · exact ⟨h, fun d hd => by cases hd; exact hd1⟩
        · rename_i ha
          exact ⟨h, fun d' hd' => absurd hd' (ha d')⟩
  unfold FileService.get
  split
  · split
    · split
      · exact ⟨h, fun d hd => by cases hd⟩
      · exact hun
    · rename_i e hf
      have he := h rel e (find_mem hf)
      split
      · split
        · exact ⟨h, fun d hd => by cases hd⟩
        · rename_i d hu
          refine ⟨h, fun d' hd' => ?_⟩
          rw [answer_file hd', update_any hu]; exact he
      · rw [getCached_eq]
        cases hr : refresh c s.fs e with
        | mk e' x =>
          obtain ⟨ok, updated⟩ := x
          have he' : Named c rel e'.path := by rw [refresh_path hr]; exact he
          simp only []
          split
          · refine ⟨h.put ?_, fun d hd => by rw [answer_file hd]; exact he'⟩
            split
            · exact he'
            · exact he'
          · exact ⟨h.put he', fun d hd => by cases hd⟩
  · exact hun

theorem handle_path {c : Cfg} {s : St} (r : Req) (now : Int) (h : AllNamed c s.cache) :
    AllNamed c (handle c s r now).2.cache ∧
    ∀ d, (handle c s r now).1 = .file d → Named c (relative c r.resource) d.path := by
  unfold handle
  simp only []
  split
  · exact ⟨h, fun d hd => by cases hd⟩
  · exact ⟨h, fun d hd => by cases hd⟩
  · rename_i path ht
    split
    · exact ⟨h, fun d hd => by cases hd⟩
    · split
      · exact get_path r _ _ h (named_target ht)
      · split
        · split
          · exact ⟨h, fun d hd => by cases hd⟩
          · split
            · unfold putPost
              simp only []
              split
              · exact ⟨h, fun d hd => by cases hd⟩
              · split <;> exact ⟨h, fun d hd => by cases hd⟩
            · unfold delete
              simp only []
              split
              · exact ⟨h, fun d hd => by cases hd⟩
              · split <;> exact ⟨h, fun d hd => by cases hd⟩
        · exact ⟨h, fun d hd => by cases hd⟩

private theorem addEntry_path {c : Cfg} {s s' : St} {rel path : Bytes} {ph : Bool} (hm : AllNamed c s.cache) (hp : Named c rel path)
    (h : addEntry c s rel path ph = some s') : AllNamed c s'.cache := by
  unfold addEntry at h
  simp only [] at h
  split at h
  · cases h; exact hm.insert hp
  · split at h
    · cases h
    · rename_i d hu
      have hd : Named c rel d.path := by rw [update_any hu]; exact hp
      split at h
      · split at h
        · cases h; exact hm
        · rename_i d2 hr
          cases h; exact hm.insert (by rw [(read_spec hr).1]; exact hd)
      · cases h
        exact hm.insert hd

private theorem scan_path {c : Cfg} (hd : DirOk c) (h0 : c.directory ≠ []) (files : List (List Bytes)) : ∀ {s s' : St},
    AllNamed c s.cache → (∀ ns ∈ files, ns ≠ [] ∧ ∀ n ∈ ns, n ≠ [] ∧ c! "/" ∉ n) →
    scanFiles c s files = some s' → AllNamed c s'.cache := by
  induction files with
  | nil => intro s s' hm _ h; cases h; exact hm
  | cons ns files ih =>
    intro s s' hm hns h
    simp only [scanFiles] at h
    split at h
    · cases h
    · rename_i s1 h1
      have := hns ns List.mem_cons_self
      exact ih (addEntry_path hm (named_scan hd h0 this.1 this.2) h1) (fun x hx => hns x (List.mem_cons_of_mem _ hx)) h

/-- Every entry has the path of the file its key asks for. -/
theorem hist_named {c : Cfg} (hd : DirOk c) {past : List Fs} {s : St} (hh : Hist c past s) : AllNamed c s.cache := by
  induction hh with
  | init fs => intro k e h; cases h
  | change fs _ ih => exact ih
  | start _ hns hs ih =>
    unfold start at hs
    split at hs
    · cases hs; exact ih
    · simp only [] at hs
      generalize hcc : (if c.cache = 0 ∧ 1 < c.scan then { c with cache := 1 } else c) = c1 at hs
      split at hs
      · cases hs
      · rename_i s1 h1
        have hc : ∀ {c1 : Cfg} {x : Option St} {y : St}, x.map (c1, ·) = some (c, y) → c1 = c := by
          intro c1 x y hx
          cases x with
          | none => cases hx
          | some z => exact (Prod.mk.inj (Option.some.inj hx)).1
        have hc1 : c1 = c := by
          split at hs
          · exact (Prod.mk.inj (Option.some.inj hs)).1
          · exact hc hs
        rw [hc1] at hs h1
        have hm1 : AllNamed c s1.cache := by
          split at h1
          · cases h1; exact ih
          · exact addEntry_path ih (fun _ => by simp [asked]) h1
        split at hs
        · cases hs; exact hm1
        · rename_i h0
          cases hsc : scanFiles c s1 _ with
          | none => rw [hsc] at hs; cases hs
          | some s2 =>
            rw [hsc] at hs
            simp only [Option.map_some, Option.some.injEq, Prod.mk.injEq] at hs
            rw [← hs.2]; exact scan_path hd h0 _ hm1 hns hsc
  | request r now _ ih => exact (handle_path r now ih).1
  | stop _ _ => intro k e h; cases h

end Verif.FileAnswers
