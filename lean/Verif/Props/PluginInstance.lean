import Verif.Model.PluginInstance
import Mathlib.Tactic.Common
/-
C62: an instance of a plug-in held by a smart pointer is destroyed once.
-/
namespace Verif.Props.PluginInstance
open Verif.PluginInstance

/-- The plug-in that a name stands for: the one that is loaded under it, else the one in the file that is found for it. -/
def Provides (w : World) (name plugin : Bytes) : Prop :=
  if w.loaded name = true then plugin = name else ∃ loads, w.file name = some (plugin, loads)

private structure Inv (s : St) : Prop where
  fresh : s.created = [] → s.ptr = none ∧ s.destroyed = []
  held : ∀ l i n, s.created = l ++ [(i, n)] → s.ptr = some i ∧ s.plugin = some n ∧ s.destroyed = l
  numbered : s.created.map Prod.fst = List.range s.created.length

private theorem cases_created (s : St) : s.created = [] ∨ ∃ l i n, s.created = l ++ [(i, n)] := by
  rcases List.eq_nil_or_concat s.created with h | ⟨l, ⟨i, n⟩, h⟩
  · exact .inl h
  · exact .inr ⟨l, i, n, by simpa using h⟩

private theorem reset_inv {s : St} (h : Inv s) : s.reset = .ok { s with destroyed := s.created } := by
  unfold St.reset
  rcases cases_created s with hc | ⟨l, i, n, hc⟩
  · obtain ⟨h1, h2⟩ := h.fresh hc
    simp only [h1, hc]
    cases s
    simp_all
  · obtain ⟨h1, h2, h3⟩ := h.held l i n hc
    rw [h1, h2]
    simp only [hc, h3]

private theorem create_inv {w : World} {s s' : St} {name : Bytes} (h : Inv s) (hc : s.create w name = .ok s') :
    Inv s' ∧ ∃ n, Provides w name n ∧ s'.created = s.created ++ [(s.created.length, n)] := by
  unfold St.create at hc
  rw [reset_inv h] at hc
  simp only [Out.bind] at hc
  have hop : ∀ t, ({ s with destroyed := s.created } : St).open_ w name = .ok t →
      t.created = s.created ∧ t.destroyed = s.created ∧ ∀ n, t.plugin = some n → Provides w name n := by
    intro t ht
    unfold St.open_ at ht
    split at ht
    next hor =>
      split at ht
      next => cases ht
      next hs =>
        cases ht
        refine ⟨rfl, rfl, fun n hn => ?_⟩
        cases hn
        rcases hor with hor | hor
        · exact (if_pos hor).mpr rfl
        · exact absurd (hor ▸ rfl) hs
    next hor =>
      split at ht
      next => cases ht
      next base loads hf =>
        split at ht
        · cases ht
          refine ⟨rfl, rfl, fun n hn => ?_⟩
          cases hn
          exact (if_neg (fun h => hor (.inl h))).mpr ⟨loads, hf⟩
        · cases ht
  cases ho : ({ s with destroyed := s.created } : St).open_ w name with
  | thrown t => rw [ho] at hc; cases hc
  | stuck => rw [ho] at hc; cases hc
  | ok t =>
    rw [ho] at hc
    obtain ⟨h1, h2, h3⟩ := hop t ho
    simp only [St.instantiate] at hc
    cases hp : t.plugin with
    | none => rw [hp] at hc; cases hc
    | some n =>
      rw [hp] at hc
      simp only [Out.ok.injEq] at hc
      subst hc
      refine ⟨⟨fun hc => by simp at hc, fun l i m hl => ?_, ?_⟩, n, h3 n hp, by rw [h1]⟩
      · simp only at hl ⊢
        rw [List.append_eq_append_iff] at hl
        obtain ⟨a, ha, hb⟩ | ⟨a, ha, hb⟩ := hl
        · cases a with
          | nil =>
            simp at ha hb
            obtain ⟨e1, e2⟩ := hb
            subst e1 e2
            exact ⟨rfl, rfl, by rw [h2, ha, h1]⟩
          | cons x a => simp at hb
        · cases a with
          | nil =>
            simp at ha hb
            obtain ⟨e1, e2⟩ := hb
            subst e1 e2
            exact ⟨rfl, rfl, by rw [h2, ← ha, h1]⟩
          | cons x a => simp at hb
      · simp only [List.map_append, List.map_cons, List.map_nil, List.length_append, List.length_singleton, h1, h.numbered,
          List.range_succ]

private theorem creates_inv {w : World} (ns : List Bytes) : ∀ {s s' : St}, Inv s → s.creates w ns = .ok s' →
    Inv s' ∧ ∃ ps, List.Forall₂ (Provides w) ns ps ∧ s'.created.map Prod.snd = s.created.map Prod.snd ++ ps := by
  induction ns with
  | nil => intro s s' h hc; simp only [St.creates, Out.ok.injEq] at hc; subst hc; exact ⟨h, [], .nil, by simp⟩
  | cons n ns ih =>
    intro s s' h hc
    simp only [St.creates] at hc
    cases hn : s.create w n with
    | thrown t => rw [hn] at hc; cases hc
    | stuck => rw [hn] at hc; cases hc
    | ok t =>
      rw [hn] at hc
      simp only [Out.bind] at hc
      obtain ⟨hi, m, hpr, hm⟩ := create_inv h hn
      obtain ⟨hi', ps, hps, hl⟩ := ih hi hc
      exact ⟨hi', m :: ps, .cons hpr hps, by rw [hl, hm]; simp⟩

/-- C62, for objects on which only `create` is called, successfully: one instance is made for each call, by the
    plug-in that was asked for, and when the object is destroyed, every instance has been destroyed exactly once, by the
    plug-in that made it. Missing: `reset` and exceptions, see below. -/
theorem destroyed_once_partial (w : World) (ns : List Bytes) (s : St) (h : ({} : St).creates w ns = .ok s) :
    ∃ t, s.reset = .ok t ∧ List.Forall₂ (Provides w) ns (t.created.map Prod.snd) ∧ t.destroyed = t.created ∧
      (t.created.map Prod.fst).Nodup := by
  have h0 : Inv ({} : St) := ⟨fun _ => ⟨rfl, rfl⟩, fun l i n hl => by simp at hl, rfl⟩
  obtain ⟨hi, ps, hps, hl⟩ := creates_inv ns h0 h
  refine ⟨_, reset_inv hi, ?_, rfl, ?_⟩
  · show List.Forall₂ _ ns (s.created.map Prod.snd)
    rw [hl]
    exact hps
  rw [hi.numbered]
  exact List.nodup_range

/-- Plug-ins in files, and one linked statically. -/
def exampleWorld : World where
  loaded := fun n => n = b! "Static"
  file := fun n => if n = b! "A" ∨ n = b! "B" then some (n, true) else if n = b! "Broken" then some (n, false) else none

example : ({} : St).creates exampleWorld [b! "A", b! "B"] =
    .ok { plugin := some (b! "B"), ptr := some 1, created := [(0, b! "A"), (1, b! "B")], destroyed := [(0, b! "A")] } := by
  decide +kernel

/-- C62 fails after `reset`: the pointer is kept, so the instance is destroyed again by the destructor, for every
    object that has an instance. It does not look empty either. -/
theorem reset_destroys_twice {s : St} {i : Nat} {n : Bytes} (hp : s.ptr = some i) (hn : s.plugin = some n) :
    ∃ t u, s.reset = .ok t ∧ t.empty = false ∧ t.reset = .ok u ∧ u.destroyed = s.destroyed ++ [(i, n), (i, n)] := by
  refine ⟨{ s with destroyed := s.destroyed ++ [(i, n)] }, { s with destroyed := s.destroyed ++ [(i, n)] ++ [(i, n)] }, ?_, ?_, ?_, ?_⟩
  · simp [St.reset, hp, hn]
  · simp [St.empty, hp]
  · simp [St.reset, hp, hn]
  · simp

/-- C62 fails if a second `create` cannot find its plug-in: the instance, destroyed by then, is destroyed again by the
    destructor. -/
theorem not_found_destroys_twice {w : World} {s : St} {i : Nat} {n name : Bytes} (hp : s.ptr = some i) (hn : s.plugin = some n)
    (hl : w.loaded name = false) (hne : n ≠ name) (hf : w.file name = none) :
    ∃ t u, s.create w name = .thrown t ∧ t.reset = .ok u ∧ u.destroyed = s.destroyed ++ [(i, n), (i, n)] := by
  refine ⟨{ s with destroyed := s.destroyed ++ [(i, n)] }, { s with destroyed := s.destroyed ++ [(i, n)] ++ [(i, n)] }, ?_, ?_, ?_⟩
  · simp [St.create, St.reset, hp, hn, Out.bind, St.open_, hl, hne, hf]
  · simp [St.reset, hp, hn]
  · simp

/-- C62 fails if a second `create` finds a file that cannot be loaded: the destructor throws. -/
theorem load_failure_destructor_throws {w : World} {s : St} {i : Nat} {n name base : Bytes} (hp : s.ptr = some i)
    (hn : s.plugin = some n) (hl : w.loaded name = false) (hlb : w.loaded base = false) (hne : n ≠ name)
    (hf : w.file name = some (base, false)) : ∃ t, s.create w name = .thrown t ∧ t.reset = .thrown t := by
  refine ⟨{ s with destroyed := s.destroyed ++ [(i, n)], plugin := none }, ?_, ?_⟩
  · simp [St.create, St.reset, hp, hn, Out.bind, St.open_, hl, hlb, hne, hf]
  · simp [St.reset, hp]

/-- C62 fails for a second `create` of a plug-in that is loaded, by this object or another, or linked statically: the
    thread waits for ever. -/
theorem second_create_stuck {w : World} {s : St} {n name : Bytes} (hn : s.plugin = some n)
    (hl : w.loaded name = true ∨ n = name) : s.create w name = .stuck := by
  have hor : w.loaded name = true ∨ some n = some name := hl.imp_right (congrArg some)
  unfold St.create St.reset
  cases hp : s.ptr with
  | none => simp only [Out.bind, St.open_, hn, if_pos hor, Option.isSome_some, if_true]
  | some i => simp only [hn, Out.bind, St.open_, if_pos hor, Option.isSome_some, if_true]

example : ({} : St).creates exampleWorld [b! "A", b! "A"] = .stuck ∧ ({} : St).creates exampleWorld [b! "A", b! "Static"] = .stuck ∧
    ({} : St).creates exampleWorld [b! "A", b! "Broken"] =
      .thrown { ptr := some 0, created := [(0, b! "A")], destroyed := [(0, b! "A")] } := by decide +kernel

end Verif.Props.PluginInstance
