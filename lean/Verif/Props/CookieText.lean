import Verif.Lemmas.CookieText
/-
C108: what the text of a cookie header says, for every text. The specification is `Spec/CookieText`.
-/
namespace Verif.Props.CookieText
open Verif Verif.Cookie Verif.Spec.Cookie

/-- Every text can be read. -/
theorem readable (t : Bytes) : ∃ l, Reads t l := reads_all t.length t (Nat.le_refl _)

/-- **C108 (the texts that are accepted).** The cookies of the text are added, in their order, to what the dictionary holds. -/
theorem accepted (setCookie : Bool) (d : Dict) {t : Bytes} {l : List Entry} (h : Reads t l) (ho : ∀ e ∈ l, e.Ok) :
    parseCookieHeader d t setCookie = (true, d ++ l.flatMap (Entry.tells setCookie)) := by
  have := adds setCookie h 0 d
  unfold Adds at this
  unfold parseCookieHeader
  change (match loop setCookie (start 0 d) t with | .inl d => (false, d) | .inr s => (true, put setCookie s)) = _
  split
  · rename_i d' e
    rw [e] at this
    obtain ⟨a, x, r, rfl, _, hx, _⟩ := this
    exact absurd (ho x (by simp)) hx
  · rename_i s e
    rw [e] at this
    rw [this.2]
    rfl

/-- **C108 (the texts that are refused).** All others; the cookies before the first entry that is not accepted have been added. -/
theorem refused (setCookie : Bool) (d : Dict) {t : Bytes} {l : List Entry} (h : Reads t l) {a r : List Entry} {e : Entry}
    (hl : l = a ++ e :: r) (ha : ∀ x ∈ a, x.Ok) (he : ¬e.Ok) :
    parseCookieHeader d t setCookie = (false, d ++ a.flatMap (Entry.tells setCookie)) := by
  have := adds setCookie h 0 d
  unfold Adds at this
  unfold parseCookieHeader
  change (match loop setCookie (start 0 d) t with | .inl d => (false, d) | .inr s => (true, put setCookie s)) = _
  split
  · rename_i d' eq
    rw [eq] at this
    obtain ⟨a', x, r', hl', h1, h2, rfl⟩ := this
    have : a' = a := by
      rw [hl] at hl'
      rcases List.append_eq_append_iff.1 hl' with ⟨c, hc, hd⟩ | ⟨c, hc, hd⟩
      · cases c with
        | nil => simpa using hc
        | cons y c =>
          obtain rfl : e = y := by simpa using congrArg List.head? hd
          exact absurd (h1 e (by simp [hc])) he
      · cases c with
        | nil => simpa using hc.symm
        | cons y c =>
          obtain rfl : x = y := by simpa using congrArg List.head? hd
          exact absurd (ha x (by simp [hc])) h2
    rw [this]
    rfl
  · rename_i s eq
    rw [eq] at this
    exact absurd (this.1 e (by simp [hl])) he

/-- If not all entries are accepted there is a first that is not. -/
theorem first_bad {l : List Entry} (h : ¬∀ e ∈ l, e.Ok) : ∃ a e r, l = a ++ e :: r ∧ (∀ x ∈ a, x.Ok) ∧ ¬e.Ok := by
  induction l with
  | nil => exact absurd nofun h
  | cons x l ih =>
    by_cases hx : x.Ok
    · obtain ⟨a, e, r, rfl, h1, h2⟩ := ih fun hl => h (by simpa [hx] using hl)
      exact ⟨x :: a, e, r, rfl, by simpa [hx] using h1, h2⟩
    · exact ⟨[], x, l, rfl, nofun, hx⟩

/-- **C108 (which).** -/
theorem accepted_iff (setCookie : Bool) (d : Dict) {t : Bytes} {l : List Entry} (h : Reads t l) :
    (parseCookieHeader d t setCookie).1 = true ↔ ∀ e ∈ l, e.Ok := by
  constructor
  · intro hp
    refine Classical.byContradiction fun hn => ?_
    obtain ⟨a, e, r, hl, h1, h2⟩ := first_bad hn
    rw [refused setCookie d h hl h1 h2] at hp
    cases hp
  · intro ho
    rw [accepted setCookie d h ho]

/-- However a text is read, it says the same. -/
theorem unambiguous (setCookie : Bool) {t : Bytes} {l l' : List Entry} (h : Reads t l) (h' : Reads t l') :
    ((∀ e ∈ l, e.Ok) ↔ ∀ e ∈ l', e.Ok) ∧
    ((∀ e ∈ l, e.Ok) → l.flatMap (Entry.tells setCookie) = l'.flatMap (Entry.tells setCookie)) := by
  have i : (∀ e ∈ l, e.Ok) ↔ ∀ e ∈ l', e.Ok := by rw [← accepted_iff setCookie [] h, accepted_iff setCookie [] h']
  refine ⟨i, fun ho => ?_⟩
  have e := accepted setCookie [] h ho
  rw [accepted setCookie [] h' (i.1 ho)] at e
  simpa using (congrArg Prod.snd e).symm

/-- Nothing that was in the dictionary is lost, whatever the text. -/
theorem kept_before (setCookie : Bool) (d : Dict) (t : Bytes) : d <+: (parseCookieHeader d t setCookie).2 := by
  obtain ⟨l, h⟩ := readable t
  by_cases ho : ∀ e ∈ l, e.Ok
  · rw [accepted setCookie d h ho]
    exact List.prefix_append _ _
  · obtain ⟨a, e, r, hl, h1, h2⟩ := first_bad ho
    rw [refused setCookie d h hl h1 h2]
    exact List.prefix_append _ _

/-- A text with all kinds of entries: spaces in names, quotes that enclose separators, what follows them, names without value. -/
def sample : Bytes := b! " a b= \"x;y\"zz;, $Path=/,=v;c;d=e'f"
def sampleEntries : List Entry := [⟨b! " a b", b! "x;y", true⟩, ⟨[], [], false⟩, ⟨b! " $Path", b! "/", false⟩, ⟨[], b! "v", false⟩,
  ⟨b! "c", [], false⟩, ⟨b! "d", b! "e'f", false⟩]

example : Reads sample sampleEntries :=
  .quoted (n := b! " a b") (sp := b! " ") (q := c! "\"") (v := b! "x;y") (x := b! "zz") (sep := c! ";") (by unfold NameText; decide +kernel) (by unfold Spaces; decide +kernel) (by decide) (by decide)
    (by unfold Passed; decide +kernel) (by decide) <|
  .bareName (n := []) (sep := c! ",") nofun (by decide) <|
  .plain (n := b! " $Path") (sp := []) (v := b! "/") (sep := c! ",") (by unfold NameText; decide +kernel) nofun (by unfold Unquoted; decide +kernel) (by decide) <|
  .plain (n := []) (sp := []) (v := b! "v") (sep := c! ";") nofun nofun (by unfold Unquoted; decide +kernel) (by decide) <|
  .bareName (n := b! "c") (sep := c! ";") (by unfold NameText; decide +kernel) (by decide) <|
  .lastPlain (n := b! "d") (sp := []) (v := b! "e'f") (by unfold NameText; decide +kernel) nofun (by unfold Unquoted; decide +kernel)

example : parseCookieHeader [] sample false = (true, [(b! "ab", b! "x;y"), (b! "c", []), (b! "d", b! "e'f")]) := by decide +kernel
example : sampleEntries.flatMap (Entry.tells false) = [(b! "ab", b! "x;y"), (b! "c", []), (b! "d", b! "e'f")] := by decide +kernel
example : ¬Entry.Ok ⟨b! "a", [0x07], false⟩ := fun h => by
  have := h.valueChars.resolve_left (by decide) 0x07 (by decide)
  revert this
  decide

end Verif.Props.CookieText
