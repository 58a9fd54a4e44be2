import Verif.Props.FileService
import Verif.Props.FileSender
/-
C48: the file handed over by the service is one the sender can send: the cached content is as long as the size.
-/
namespace Verif.Props.FileHandover
open Verif.FileService Verif.Path Verif.Spec.Path Verif.Spec.FileService

def Sized (d : DiskFile) : Prop := ∀ l, d.content = some l → l.length = d.size

def AllSized (m : Cache) : Prop := ∀ k e, (k, e) ∈ m → Sized e

private theorem sized_read {c : Cfg} {fs : Fs} {d d' : DiskFile} {ok : Bool} (h : d.read c fs = (d', ok)) : Sized d' := by
  unfold DiskFile.read at h
  split at h
  · split at h
    · simp only [Prod.mk.injEq] at h
      rw [← h.1]
      intro l hl
      simp only [Option.some.injEq] at hl
      rw [← hl]
      simp only [List.length_append, List.length_replicate, List.length_map, List.length_take]
      omega
    · simp only [Prod.mk.injEq] at h
      rw [← h.1]
      intro l hl
      simp only [Option.some.injEq] at hl
      rw [← hl]; simp
  · simp only [Prod.mk.injEq] at h
    rw [← h.1]
    intro l hl
    simp only [Option.some.injEq] at hl
    rw [← hl]; simp

private theorem sized_none {d : DiskFile} (h : d.content = none) : Sized d := fun l hl => by rw [h] at hl; cases hl

private theorem sized_put {m : Cache} (h : AllSized m) {k : Bytes} {d : DiskFile} (hd : Sized d) : AllSized (m.put k d) := by
  intro k' e hm
  unfold Cache.put at hm
  obtain ⟨x, hx, he⟩ := List.mem_map.mp hm
  split at he
  · cases he; exact hd
  · subst he; exact h k' e hx

private theorem sized_insert {m : Cache} (h : AllSized m) {k : Bytes} {d : DiskFile} (hd : Sized d) : AllSized (m.insert k d) := by
  unfold Cache.insert
  split
  · exact h
  · intro k' e hm
    rcases List.mem_append.mp hm with hm | hm
    · exact h k' e hm
    · cases List.mem_singleton.mp hm; exact hd

private theorem sized_refresh {c : Cfg} {fs : Fs} {e e' : DiskFile} {ok updated : Bool} (he : Sized e)
    (h : refresh c fs e = (e', ok, updated)) : Sized e' := by
  unfold refresh at h
  split at h
  · split at h
    · rename_i e1 hu
      cases h
      unfold DiskFile.update at hu
      split at hu
      · simp at hu
      · simp only [Prod.mk.injEq, and_true] at hu; rw [← hu]; exact he
    · rename_i e1 hu
      split at h
      · cases hr : e1.read c fs with
        | mk e2 ok2 => rw [hr] at h; cases h; exact sized_read hr
      · cases h; exact sized_none rfl
  · split at h
    · unfold DiskFile.checkUpdated at h
      split at h
      · split at h
        · cases h; exact he
        · simp only [] at h
          rename_i f _ _
          cases hr : ({ e with size := f.content.length, mtime := f.mtime, lastModified := c.date f.mtime } : DiskFile).read c fs with
          | mk e2 ok2 => rw [hr] at h; cases h; exact sized_read hr
      · cases h; exact he
    · cases h; exact he

private theorem answer_sized {r : Req} {d d' : DiskFile} (h : answer r d = .file d') (hd : Sized d) : Sized d' := by
  rw [answer_file h]; exact hd

private theorem get_sized {c : Cfg} {s : St} (r : Req) (rel path : Bytes) (h : AllSized s.cache) :
    AllSized (FileService.get c s r rel path).2.cache ∧ ∀ d, (FileService.get c s r rel path).1 = .file d → Sized d := by
  have hun : AllSized (getUncached c s r rel path).2.cache ∧ ∀ d, (getUncached c s r rel path).1 = .file d → Sized d := by
    unfold getUncached
    split
    · exact ⟨h, fun d hd => by cases hd⟩
    · split
      · exact ⟨h, fun d hd => by cases hd⟩
      · rename_i d hu
        have hd : Sized d := sized_none (update_spec hu rfl).2.1
        split
        · rename_i d1 ha
          have hd1 := answer_sized ha hd
          split
          · split
            · split
              · exact ⟨h, fun d hd => by cases hd⟩
              · rename_i d2 hr
                exact ⟨sized_insert h (sized_read hr), fun d hd => by cases hd; exact sized_read hr⟩
            · exact ⟨sized_insert h hd1, fun d hd => by cases hd; exact hd1⟩
          · exact ⟨h, fun d hd => by cases hd; exact hd1⟩
        · rename_i ha
          exact ⟨h, fun d' hd' => absurd hd' (ha d')⟩
  unfold FileService.get
  split
  · split
    · split
      · exact ⟨h, fun d hd => by cases hd⟩
      · exact hun
    · rename_i e hf
      have he := h rel e (find_mem hf)
      split
      · split
        · exact ⟨h, fun d hd => by cases hd⟩
        · rename_i d hu
          exact ⟨h, fun d' hd' => answer_sized hd' (sized_none (update_spec hu rfl).2.1)⟩
      · rw [getCached_eq]
        cases hr : refresh c s.fs e with
        | mk e' x =>
          obtain ⟨ok, updated⟩ := x
          have he' := sized_refresh he hr
          simp only []
          split
          · refine ⟨sized_put h ?_, fun d hd => answer_sized hd he'⟩
            split
            · exact sized_none rfl
            · exact he'
          · exact ⟨sized_put h he', fun d hd => by cases hd⟩
  · exact hun

private theorem handle_sized {c : Cfg} {s : St} (r : Req) (now : Int) (h : AllSized s.cache) :
    AllSized (handle c s r now).2.cache ∧ ∀ d, (handle c s r now).1 = .file d → Sized d := by
  unfold handle
  simp only []
  split
  · exact ⟨h, fun d hd => by cases hd⟩
  · exact ⟨h, fun d hd => by cases hd⟩
  · split
    · exact ⟨h, fun d hd => by cases hd⟩
    · split
      · exact get_sized r _ _ h
      · split
        · split
          · exact ⟨h, fun d hd => by cases hd⟩
          · split
            · unfold putPost
              simp only []
              split
              · exact ⟨h, fun d hd => by cases hd⟩
              · split <;> exact ⟨h, fun d hd => by cases hd⟩
            · unfold delete
              simp only []
              split
              · exact ⟨h, fun d hd => by cases hd⟩
              · split <;> exact ⟨h, fun d hd => by cases hd⟩
        · exact ⟨h, fun d hd => by cases hd⟩

private theorem addEntry_sized {c : Cfg} {s s' : St} {rel path : Bytes} {ph : Bool} (hm : AllSized s.cache)
    (h : addEntry c s rel path ph = some s') : AllSized s'.cache := by
  unfold addEntry at h
  simp only [] at h
  split at h
  · cases h; exact sized_insert hm (sized_none rfl)
  · split at h
    · cases h
    · rename_i d hu
      split at h
      · split at h
        · cases h; exact hm
        · rename_i d2 hr
          cases h; exact sized_insert hm (sized_read hr)
      · cases h
        exact sized_insert hm (sized_none (update_spec hu rfl).2.1)

private theorem scan_sized {c : Cfg} (files : List (List Bytes)) : ∀ {s s' : St}, AllSized s.cache →
    scanFiles c s files = some s' → AllSized s'.cache := by
  induction files with
  | nil => intro s s' hm h; cases h; exact hm
  | cons ns files ih =>
    intro s s' hm h
    simp only [scanFiles] at h
    split at h
    · cases h
    · rename_i s1 h1
      exact ih (addEntry_sized hm h1) h

private theorem start_sized {c c' : Cfg} {s s' : St} {files : List (List Bytes)} (hm : AllSized s.cache)
    (h : start c s files = some (c', s')) : AllSized s'.cache := by
  unfold start at h
  split at h
  · cases h; exact hm
  · simp only [] at h
    generalize (if c.cache = 0 ∧ 1 < c.scan then { c with cache := 1 } else c) = c1 at h
    split at h
    · cases h
    · rename_i s1 h1
      have hm1 : AllSized s1.cache := by
        split at h1
        · cases h1; exact hm
        · exact addEntry_sized hm h1
      split at h
      · cases h; exact hm1
      · cases hs : scanFiles c1 s1 files with
        | none => rw [hs] at h; cases h
        | some s2 =>
          rw [hs] at h
          simp only [Option.map_some, Option.some.injEq, Prod.mk.injEq] at h
          rw [← h.2]; exact scan_sized files hm1 hs

/-- A file given to the sender has a content as long as its size, if it has content. -/
theorem handed_over {c : Cfg} {past : List Fs} {s : St} (hh : Hist c past s) (r : Req) (now : Int) {d : DiskFile}
    (ho : (handle c s r now).1 = .file d) {l : List (Option UInt8)} (hl : d.content = some l) : l.length = d.size := by
  have hm : AllSized s.cache := by
    clear ho
    induction hh with
    | init fs => intro k e h; cases h
    | change fs _ ih => exact ih
    | start _ _ hs ih => exact start_sized ih hs
    | request r now _ ih => exact (handle_sized r now ih).1
    | stop _ _ => intro k e h; cases h
  exact (handle_sized r now hm).2 d ho l hl

/-- C48: with the service's files the sender never reads or writes beyond a buffer. `content` is what is in the memory of
    the cached content, whatever that is where it was not written. -/
theorem service_no_overrun {c : Cfg} {past : List Fs} {s : St} (hh : Hist c past s) (r : Req) (now : Int) {d : DiskFile}
    (ho : (handle c s r now).1 = .file d) (disk : Option Bytes) (byte : Option UInt8 → UInt8) (ws : List FileSender.Write) :
    (FileSender.deliver ws (Props.FileSender.start d.size (d.content.map (·.map byte)) disk c.maxChunk)).2 ≠ .overrun := by
  refine Props.FileSender.no_overrun ?_ ws
  intro l hl
  cases hd : d.content with
  | none => rw [hd] at hl; cases hl
  | some l' =>
    rw [hd] at hl
    simp only [Option.map_some, Option.some.injEq] at hl
    rw [← hl, List.length_map]
    exact handed_over hh r now ho hd

example : (Props.FileService.contentOf (handle Props.FileService.cachedCfg { fs := Props.FileService.exampleFs }
    Props.FileService.getIndex 0).1).map (·.length) = some 5 := by decide +kernel

end Verif.Props.FileHandover
