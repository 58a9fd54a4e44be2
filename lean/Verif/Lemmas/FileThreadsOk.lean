import Verif.Lemmas.FileThreadsInv
/-
What the entry of the cache and the calls know of the file.
-/
namespace Verif.FileThreads
open Verif.Spec.FileThreads

abbrev Hist := List (Option Version)
abbrev Heap := List (List (Option UInt8))

/-- Each byte is one that the file had at or after `j`. -/
def From (h : Hist) (j : Nat) (bs : List (Option UInt8)) : Prop :=
  ∀ (p : Nat) x, bs[p]? = some x → ∃ k v y, j ≤ k ∧ At h k v ∧ x = some y ∧ v.content[p]? = some y

/-- The buffer is complete. -/
def Full (h : Hist) (heap : Heap) (j : Nat) (d : Disk) : Prop :=
  ∀ b, d.buf = some b → ∃ bs, heap[b]? = some bs ∧ bs.length = d.size ∧ From h j bs

/-- The size is that of a moment since `l`, the time that of the later moment `j`. -/
def Known (h : Hist) (l j : Nat) (d : Disk) : Prop :=
  ∃ i v w, l ≤ i ∧ i ≤ j ∧ At h i v ∧ v.content.length = d.size ∧ At h j w ∧ w.time = d.time

/-- The file was too short at or after `j`. -/
def Short (h : Hist) (j size : Nat) : Prop := ∃ k p, j ≤ k ∧ k < h.length ∧ p < size ∧ byteAt h k p = none

def Serve (h : Hist) (heap : Heap) (l : Nat) (d : Disk) : Prop := ∃ j, Known h l j d ∧ Full h heap j d

/-- An entry as it was made by a call that has ended. -/
def Made (h : Hist) (heap : Heap) (j : Nat) (e : Disk) : Prop := Known h 0 j e ∧ (Full h heap j e ∨ Short h j e.size)

def EntryOk (cfg : Cfg) (h : Hist) (heap : Heap) (e : Disk) : Prop :=
  (cfg.cache < 2 → e.time ≠ 0 → ∃ j, Made h heap j e) ∧ (2 ≤ cfg.cache → e.time ≠ 0 ∧ Serve h heap 0 e)

/-- The earliest version that a call may give. -/
def lo (cfg : Cfg) (c : Call) : Nat := if cfg.cache < 2 then c.came else 0

theorem lo_le (cfg : Cfg) (c : Call) : lo cfg c ≤ c.came := by unfold lo; split <;> omega

/-- The entry is being read. -/
def loading : Pc → Bool
  | .read u | .fill u _ => decide (u ≠ .own)
  | _ => false

theorem loading_holds {pc : Pc} (h : loading pc = true) : holds pc = true := by
  unfold loading at h; split at h <;> simp_all [holds]

/-- A reason for an exception. -/
def Trouble (h : Hist) (l : Nat) : Prop := GoneWithin h l (h.length - 1) ∨ ResizedWithin h l (h.length - 1)

def PcOk (cfg : Cfg) (h : Hist) (heap : Heap) (entry : Option Disk) (c : Call) : Pc → Prop
  | .lookup | .exist => True
  | .size u => (u = .first ∨ u = .check → cfg.cache < 2) ∧ ∀ e, entry = some e →
      (u = .first → e.time = 0) ∧ (u = .check → e.time ≠ 0)
  | .time u n => (u = .first ∨ u = .check → cfg.cache < 2) ∧
      ∃ k v, c.came ≤ k ∧ At h k v ∧ v.content.length = n ∧ ∀ e, entry = some e →
        (u = .first → e.size = n) ∧ (u = .check → ∃ j, j ≤ k ∧ Made h heap j e)
  | .read u => if u = .own then ∃ j, Known h c.came j c.file
      else cfg.cache < 2 ∧ ∀ e, entry = some e → ∃ j, Known h c.came j e
  | .fill u o => o < h.length ∧ if u = .own then ∃ j, j ≤ o ∧ Known h c.came j c.file
      else cfg.cache < 2 ∧ ∀ e, entry = some e → ∃ j, j ≤ o ∧ Known h c.came j e
  | .copy _ => ∀ e, entry = some e → Serve h heap (lo cfg c) e
  | .insert => Serve h heap c.came c.file
  | .send sent op => Serve h heap (lo cfg c) c.file ∧ sent.length ≤ c.file.size ∧ From h (lo cfg c) sent ∧
      ∀ o, op = some o → lo cfg c ≤ o
  | .done (.file size time body) => Composed h (lo cfg c) (h.length - 1) size time body
  | .done (.notModified t) => c.req.since = some t ∧ TimeWithin h (lo cfg c) (h.length - 1) t
  | .done (.headers t) => TimeWithin h (lo cfg c) (h.length - 1) t
  | .done .overrun => False
  | .done .notFound => (cfg.scan = 1 ∨ cfg.scan = 3) ∨ GoneWithin h (lo cfg c) (h.length - 1)
  | .done .error | .done .gaveUp => Trouble h (lo cfg c)

def CallOk (cfg : Cfg) (h : Hist) (heap : Heap) (entry : Option Disk) (c : Call) : Prop :=
  c.came < h.length ∧ PcOk cfg h heap entry c c.pc

/-! ### They last -/

theorem _root_.Verif.Spec.FileThreads.At.lt {h : Hist} {k : Nat} {v : Version} (a : At h k v) : k < h.length := by
  by_contra hk
  rw [At, List.getElem?_eq_none (by omega)] at a
  cases a

theorem _root_.Verif.Spec.FileThreads.At.ext {h h' : Hist} (x : ∃ t, h' = h ++ t) {k : Nat} {v : Version} (a : At h k v) : At h' k v := by
  obtain ⟨t, rfl⟩ := x
  have := a.lt
  rw [At, List.getElem?_append_left this]; exact a

theorem length_ext {h h' : Hist} (x : ∃ t, h' = h ++ t) : h.length ≤ h'.length := by
  obtain ⟨t, rfl⟩ := x; simp

theorem From.ext {h h' : Hist} (x : ∃ t, h' = h ++ t) {j : Nat} {bs : List (Option UInt8)} (a : From h j bs) :
    From h' j bs := fun p y hy => by
  obtain ⟨k, v, z, h1, h2, h3⟩ := a p y hy
  exact ⟨k, v, z, h1, h2.ext x, h3⟩

theorem From.mono {h : Hist} {j l : Nat} (hl : l ≤ j) {bs : List (Option UInt8)} (a : From h j bs) : From h l bs :=
  fun p y hy => by
    obtain ⟨k, v, z, h1, h2, h3⟩ := a p y hy
    exact ⟨k, v, z, by omega, h2, h3⟩

/-- What is in the buffer of `d` stays as it is. -/
def Keep (heap heap' : Heap) (d : Disk) : Prop := ∀ b, d.buf = some b → ∀ bs, heap[b]? = some bs → heap'[b]? = some bs

theorem keep_append (heap t : Heap) (d : Disk) : Keep heap (heap ++ t) d := fun b _ bs hbs => by
  rw [List.getElem?_append_left (List.getElem?_eq_some_iff.1 hbs).1]; exact hbs

theorem Keep.refl (heap : Heap) (d : Disk) : Keep heap heap d := fun _ _ _ h => h

theorem keep_set {heap : Heap} {b : Nat} {bs : List (Option UInt8)} {d : Disk} (h : d.buf ≠ some b) :
    Keep heap (heap.set b bs) d := fun b' hb bs' hbs => by
  rw [List.getElem?_set_ne (by rintro rfl; exact h hb)]; exact hbs

theorem Full.frame {h h' : Hist} {heap heap' : Heap} (x : ∃ t, h' = h ++ t) {j : Nat} {d : Disk} (k : Keep heap heap' d)
    (a : Full h heap j d) : Full h' heap' j d := fun b hb => by
  obtain ⟨bs, h1, h2, h3⟩ := a b hb
  exact ⟨bs, k b hb bs h1, h2, h3.ext x⟩

theorem Known.ext {h h' : Hist} (x : ∃ t, h' = h ++ t) {l j : Nat} {d : Disk} (a : Known h l j d) : Known h' l j d := by
  obtain ⟨i, v, w, h1, h2, h3, h4, h5, h6⟩ := a
  exact ⟨i, v, w, h1, h2, h3.ext x, h4, h5.ext x, h6⟩

theorem Known.mono {h : Hist} {l l' j : Nat} (hl : l' ≤ l) {d : Disk} (a : Known h l j d) : Known h l' j d := by
  obtain ⟨i, v, w, h1, h2⟩ := a
  exact ⟨i, v, w, by omega, h2⟩

theorem Known.lt {h : Hist} {l j : Nat} {d : Disk} (a : Known h l j d) : j < h.length := by
  obtain ⟨_, _, w, _, _, _, _, h5, _⟩ := a; exact h5.lt

theorem byteAt_ext {h h' : Hist} (x : ∃ t, h' = h ++ t) {k p : Nat} (hk : k < h.length) : byteAt h' k p = byteAt h k p := by
  obtain ⟨t, rfl⟩ := x
  simp [byteAt, List.getElem?_append_left hk]

theorem Short.ext {h h' : Hist} (x : ∃ t, h' = h ++ t) {j n : Nat} (a : Short h j n) : Short h' j n := by
  obtain ⟨k, p, h1, h2, h3, h4⟩ := a
  have := length_ext x
  exact ⟨k, p, h1, by omega, h3, (byteAt_ext x h2).trans h4⟩

theorem Serve.frame {h h' : Hist} {heap heap' : Heap} (x : ∃ t, h' = h ++ t) {l : Nat} {d : Disk} (k : Keep heap heap' d)
    (a : Serve h heap l d) : Serve h' heap' l d := by
  obtain ⟨j, h1, h2⟩ := a; exact ⟨j, h1.ext x, h2.frame x k⟩

theorem Serve.mono {h : Hist} {heap : Heap} {l l' : Nat} (hl : l' ≤ l) {d : Disk} (a : Serve h heap l d) :
    Serve h heap l' d := by
  obtain ⟨j, h1, h2⟩ := a; exact ⟨j, h1.mono hl, h2⟩

theorem Made.frame {h h' : Hist} {heap heap' : Heap} (x : ∃ t, h' = h ++ t) {j : Nat} {d : Disk} (k : Keep heap heap' d)
    (a : Made h heap j d) : Made h' heap' j d := by
  obtain ⟨h1, h2 | h2⟩ := a
  · exact ⟨h1.ext x, .inl (h2.frame x k)⟩
  · exact ⟨h1.ext x, .inr (h2.ext x)⟩

theorem EntryOk.frame {cfg : Cfg} {h h' : Hist} {heap heap' : Heap} (x : ∃ t, h' = h ++ t) {d : Disk}
    (k : Keep heap heap' d) (a : EntryOk cfg h heap d) : EntryOk cfg h' heap' d := by
  refine ⟨fun hc ht => ?_, fun hc => ⟨(a.2 hc).1, (a.2 hc).2.frame x k⟩⟩
  obtain ⟨j, hj⟩ := a.1 hc ht
  exact ⟨j, hj.frame x k⟩

theorem _root_.Verif.Spec.FileThreads.TimeWithin.ext {h h' : Hist} (x : ∃ t, h' = h ++ t) {a t : Nat} (w : TimeWithin h a (h.length - 1) t) :
    TimeWithin h' a (h'.length - 1) t := by
  obtain ⟨k, v, h1, h2, h3, h4⟩ := w
  have := length_ext x
  exact ⟨k, v, h1, by omega, h3.ext x, h4⟩

theorem _root_.Verif.Spec.FileThreads.Composed.ext {h h' : Hist} (x : ∃ t, h' = h ++ t) {a n t : Nat} {body : List (Option UInt8)}
    (w : Composed h a (h.length - 1) n t body) : Composed h' a (h'.length - 1) n t body := by
  have := length_ext x
  obtain ⟨⟨k, v, h1, h2, h3, h4⟩, h5, h6, h7⟩ := w
  refine ⟨⟨k, v, h1, by omega, h3.ext x, h4⟩, TimeWithin.ext x h5, h6, fun p y hy => ?_⟩
  obtain ⟨k, v, h1, h2, h3, h4⟩ := h7 p y hy
  exact ⟨k, v, h1, by omega, h3.ext x, h4⟩

theorem gone_ext {h h' : Hist} (x : ∃ t, h' = h ++ t) {a : Nat} (w : GoneWithin h a (h.length - 1)) :
    GoneWithin h' a (h'.length - 1) := by
  obtain ⟨k, h1, h2, h3⟩ := w
  obtain ⟨t, rfl⟩ := x
  have hk : k < h.length := (List.getElem?_eq_some_iff.1 h3).1
  exact ⟨k, h1, by simp; omega, by rw [List.getElem?_append_left hk]; exact h3⟩

theorem Trouble.ext {h h' : Hist} (x : ∃ t, h' = h ++ t) {a : Nat} (w : Trouble h a) : Trouble h' a := by
  rcases w with w | ⟨j, k, v, w, h1, h2, h3, h4, h5, h6, h7⟩
  · exact .inl (gone_ext x w)
  · have := length_ext x
    exact .inr ⟨j, k, v, w, h1, by omega, h3, by omega, h5.ext x, h6.ext x, h7⟩

theorem CallOk.frame {cfg : Cfg} {h h' : Hist} {heap heap' : Heap} {entry entry' : Option Disk} {c : Call}
    (x : ∃ t, h' = h ++ t) (kc : Keep heap heap' c.file)
    (ke : holds c.pc = true → entry' = entry ∧ ∀ e, entry = some e → Keep heap heap' e)
    (a : CallOk cfg h heap entry c) : CallOk cfg h' heap' entry' c := by
  have hlen := length_ext x
  obtain ⟨hcame, a⟩ := a
  refine ⟨by omega, ?_⟩
  unfold PcOk at a ⊢
  split at a
  · trivial
  · trivial
  next u hp =>
    by_cases hu : u = .own
    · subst hu; simp
    · obtain ⟨he, _⟩ := ke (by simp [hp, holds, hu])
      rw [he]; exact a
  next u n hp =>
    obtain ⟨a1, k, v, a2, a3, a4, a5⟩ := a
    refine ⟨a1, k, v, a2, a3.ext x, a4, ?_⟩
    by_cases hu : u = .own
    · subst hu; simp
    · obtain ⟨he, hk⟩ := ke (by simp [hp, holds, hu])
      rw [he]
      intro e hee
      refine ⟨(a5 e hee).1, fun hc => ?_⟩
      obtain ⟨j, hj, hm⟩ := (a5 e hee).2 hc
      exact ⟨j, hj, hm.frame x (hk e hee)⟩
  next u hp =>
    split at a
    next hu => rw [if_pos hu]; obtain ⟨j, hj⟩ := a; exact ⟨j, hj.ext x⟩
    next hu =>
      rw [if_neg hu]
      obtain ⟨he, hk⟩ := ke (by simp [hp, holds, hu])
      rw [he]
      refine ⟨a.1, fun e hee => ?_⟩
      obtain ⟨j, hj⟩ := a.2 e hee
      exact ⟨j, hj.ext x⟩
  next u o hp =>
    obtain ⟨ho, a⟩ := a
    refine ⟨by omega, ?_⟩
    split at a
    next hu => rw [if_pos hu]; obtain ⟨j, hjo, hj⟩ := a; exact ⟨j, hjo, hj.ext x⟩
    next hu =>
      rw [if_neg hu]
      obtain ⟨he, hk⟩ := ke (by simp [hp, holds, hu])
      rw [he]
      refine ⟨a.1, fun e hee => ?_⟩
      obtain ⟨j, hjo, hj⟩ := a.2 e hee
      exact ⟨j, hjo, hj.ext x⟩
  next u hp =>
    obtain ⟨he, hk⟩ := ke (by simp [hp, holds])
    rw [he]
    exact fun e hee => (a e hee).frame x (hk e hee)
  · exact a.frame x kc
  next sent op hp =>
    exact ⟨a.1.frame x kc, a.2.1, a.2.2.1.ext x, a.2.2.2⟩
  · exact Composed.ext x a
  · exact ⟨a.1, TimeWithin.ext x a.2⟩
  · exact TimeWithin.ext x a
  · exact a
  · exact a.imp id (gone_ext x)
  · exact Trouble.ext x a
  · exact Trouble.ext x a

end Verif.FileThreads
