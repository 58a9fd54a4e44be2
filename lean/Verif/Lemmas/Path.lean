import Verif.Model.Path
import Verif.Spec.Path
import Mathlib.Tactic.Common
/-
Facts about the path functions for the properties of the file service.
-/
namespace Verif.Path
open Verif.Spec.Path

theorem getLast?_append_ne {α : Type} (l : List α) {l' : List α} (h : l' ≠ []) : (l ++ l').getLast? = l'.getLast? := by
  rw [List.getLast?_append]
  rw [List.getLast?_eq_some_getLast h]; rfl

theorem namesFrom_eq (p : Bytes) : ∀ cur, namesFrom cur p = (List.splitOnPPrepend (· == slash) p cur.reverse).filter (· ≠ []) := by
  induction p with
  | nil =>
    intro cur
    simp only [namesFrom, List.splitOnPPrepend_nil, List.reverse_reverse]
    by_cases h : cur = [] <;> simp [h]
  | cons c p ih =>
    intro cur
    rw [namesFrom, List.splitOnPPrepend_cons_eq_if]
    by_cases hc : c = slash
    · have hi := ih []
      simp only [List.reverse_nil, List.splitOnPPrepend_nil_right] at hi
      simp only [hc, if_true, beq_self_eq_true, List.reverse_reverse]
      by_cases h : cur = [] <;> simp [h, hi]
    · have hi := ih (cur ++ [c])
      simp only [List.reverse_append, List.reverse_cons, List.reverse_nil, List.nil_append, List.singleton_append] at hi
      rw [if_neg hc, if_neg (by simpa using hc), hi]

theorem names_eq (p : Bytes) : names p = (p.splitOn slash).filter (· ≠ []) := by
  rw [names, namesFrom_eq]
  rfl

theorem resolve_eq (cwd : Place) (p : Bytes) :
    resolve cwd p = walk (if p.head? = some slash then [] else cwd) (names p) := by
  rw [names_eq]; rfl

theorem namesFrom_name (n r : Bytes) (hn : slash ∉ n) : ∀ cur, namesFrom cur (n ++ r) = namesFrom (cur ++ n) r := by
  induction n with
  | nil => intro cur; simp
  | cons c n ih =>
    intro cur
    have hc : c ≠ slash := fun h => hn (by simp [h])
    rw [List.cons_append, namesFrom, if_neg hc, ih (fun h => hn (List.mem_cons_of_mem _ h)), List.append_assoc,
      List.singleton_append]

theorem names_cons_slash (r : Bytes) : names (slash :: r) = names r := by simp [names, namesFrom]

theorem namesFrom_slash (n r : Bytes) (h : n ≠ []) : namesFrom n (slash :: r) = n :: names r := by
  rw [namesFrom, if_pos rfl, if_neg h]; rfl

/-- No name has a slash or is empty. -/
theorem mem_namesFrom {n : Bytes} (p : Bytes) : ∀ cur, slash ∉ cur → n ∈ namesFrom cur p → n ≠ [] ∧ slash ∉ n := by
  induction p with
  | nil =>
    intro cur hc hn
    simp only [namesFrom] at hn
    split at hn
    · cases hn
    · rename_i h; simp only [List.mem_singleton] at hn; subst hn; exact ⟨h, hc⟩
  | cons c p ih =>
    intro cur hc hn
    rw [namesFrom] at hn
    split at hn
    · split at hn
      · exact ih _ (by simp) hn
      · rename_i h
        rcases List.mem_cons.mp hn with rfl | hn
        · exact ⟨h, hc⟩
        · exact ih _ (by simp) hn
    · rename_i h
      exact ih _ (by simp [hc, Ne.symm h]) hn

theorem mem_names {n p : Bytes} (h : n ∈ names p) : n ≠ [] ∧ slash ∉ n := mem_namesFrom p [] (by simp) h

theorem absolute_cons (d : Bytes) (ds : Place) : absolute (d :: ds) = slash :: (d ++ absolute ds) := rfl

theorem names_absolute (ds : Place) (r : Bytes) (hd : ∀ d ∈ ds, d ≠ [] ∧ slash ∉ d) :
    names (absolute ds ++ slash :: r) = ds ++ names r := by
  induction ds with
  | nil => simp [absolute, names_cons_slash]
  | cons d ds ih =>
    have h1 := hd d List.mem_cons_self
    have h2 := ih (fun x hx => hd x (List.mem_cons_of_mem _ hx))
    rw [absolute_cons, List.cons_append, names_cons_slash, names, List.append_assoc, namesFrom_name _ _ h1.2,
      List.nil_append, List.cons_append, ← h2]
    cases ds with
    | nil => simp only [absolute, List.flatMap_nil, List.nil_append]; rw [namesFrom_slash _ _ h1.1, names_cons_slash]
    | cons d' ds =>
      rw [absolute_cons, List.cons_append, namesFrom_slash _ _ h1.1, names_cons_slash]

/-- The path with a root directory and the given names. -/
theorem foldl_append_absolute (ns : List Bytes) (hn : ∀ n ∈ ns, n ≠ [] ∧ slash ∉ n) :
    ∀ p : Bytes, p ≠ [] → p.getLast? ≠ some slash → ns.foldl append p = p ++ absolute ns := by
  induction ns with
  | nil => intro p _ _; simp [absolute]
  | cons n ns ih =>
    intro p h0 h1
    have hh := hn n List.mem_cons_self
    have hhead : n.head? ≠ some slash := by
      cases n with
      | nil => simp
      | cons a n => intro h; simp only [List.head?_cons, Option.some.injEq] at h; exact hh.2 (by simp [h])
    have hlast : (p ++ slash :: n).getLast? ≠ some slash := by
      rw [getLast?_append_ne _ (by simp), List.getLast?_cons_of_ne_nil hh.1]
      intro h
      exact hh.2 (List.mem_of_getLast? h)
    rw [List.foldl_cons]
    have : append p n = p ++ slash :: n := by
      unfold append
      rw [if_neg hh.1, if_neg hhead, if_neg (by simp [h0, h1])]
    rw [this, ih (fun x hx => hn x (List.mem_cons_of_mem _ hx)) _ (by simp) hlast, absolute_cons]
    simp

theorem join_root (n : Bytes) (ns : List Bytes) (hn : ∀ x ∈ n :: ns, x ≠ [] ∧ slash ∉ x) :
    join (rootName :: n :: ns) = absolute (n :: ns) := by
  have hh := hn n List.mem_cons_self
  have hhead : n.head? ≠ some slash := by
    cases n with
    | nil => simp
    | cons a n => intro h; simp only [List.head?_cons, Option.some.injEq] at h; exact hh.2 (by simp [h])
  have h1 : append [] rootName = rootName := by decide
  have h2 : append rootName n = slash :: n := by
    unfold append
    rw [if_neg hh.1, if_neg hhead, if_pos (.inr (by decide))]
    rfl
  rw [join, List.foldl_cons, h1, List.foldl_cons, h2,
    foldl_append_absolute ns (fun x hx => hn x (List.mem_cons_of_mem _ hx)) _ (by simp), absolute_cons]
  · rfl
  · rw [List.getLast?_cons_of_ne_nil hh.1]
    exact fun h => hh.2 (List.mem_of_getLast? h)

/-! ### Normalising a path of tame names -/

theorem removable_of_plain {n : Bytes} (hp : Plain n) (hd : ¬ Dotted n) : removable n = true := by
  obtain ⟨h0, hs, h1, h2⟩ := hp
  match n, h0 with
  | [a], _ =>
    have ha : a ≠ c! "." := fun h => h1 (by rw [h])
    have hb : a ≠ slash := fun h => hs (by rw [h]; simp [slash])
    simp [removable, ha, hb]
  | [a, b], _ =>
    have : ¬ (c! "." ∈ [a, b]) := fun hm => hd ⟨rfl, hm, h2⟩
    simp only [List.mem_cons, List.not_mem_nil, or_false, not_or] at this
    simp [removable, Ne.symm this.1, Ne.symm this.2]
  | _ :: _ :: _ :: _, _ => rfl

/-- A proper name that ".." removes. -/
def Tame (n : Bytes) : Prop := Plain n ∧ removable n = true

theorem normLoop_tame (cs : List Bytes) : ∀ (k : Nat) (st : Place),
    (∀ c ∈ cs, c = dotName ∨ c = dotDotName ∨ Tame c) → (∀ n ∈ st, Tame n) →
    ∃ (k' : Nat) (st' : Place) (tail : List Bytes),
      normLoop false (rootName :: (List.replicate k dotDotName ++ st)) cs =
        rootName :: (List.replicate k' dotDotName ++ st' ++ tail) ∧
      (tail = [] ∨ tail = [dotName]) ∧ (∀ n ∈ st', Tame n) ∧ (k' = 0 → k = 0 ∧ walk st cs = st') := by
  induction cs with
  | nil => intro k st _ hst; exact ⟨k, st, [], by simp [normLoop], .inl rfl, hst, fun h => ⟨h, rfl⟩⟩
  | cons c cs ih =>
    intro k st hcs hst
    have hcs' := fun x hx => hcs x (List.mem_cons_of_mem _ hx)
    rw [normLoop]
    rcases hcs c List.mem_cons_self with rfl | rfl | hc
    · -- "."
      by_cases hr : cs = []
      · subst hr
        rw [if_neg (by simp), if_neg (by rintro ⟨h, -⟩; exact absurd h (by decide)), normLoop]
        exact ⟨k, st, [dotName], by simp, .inr rfl, hst, fun h => ⟨h, by simp [walk, dotName]⟩⟩
      · rw [if_pos ⟨rfl, rfl, hr⟩]
        obtain ⟨k', st', tail, h1, h2, h3, h4⟩ := ih k st hcs' hst
        exact ⟨k', st', tail, h1, h2, h3, fun h => ⟨(h4 h).1, by rw [walk, if_pos (by rfl)]; exact (h4 h).2⟩⟩
    · -- ".."
      rw [if_neg (by rintro ⟨h, -⟩; exact absurd h (by decide))]
      have hw : ∀ st, walk st (dotDotName :: cs) = walk st.dropLast cs := by
        intro st; rw [walk, if_neg (by decide), if_pos (by rfl)]
      rcases List.eq_nil_or_concat st with rfl | ⟨st0, n, rfl⟩
      · have hnr : removable ((rootName :: (List.replicate k dotDotName ++ [])).getLast?.getD []) = false := by
          cases k with
          | zero => decide
          | succ k => rw [List.append_nil, List.replicate_succ', ← List.cons_append, getLast?_append_ne _ (by simp)]; decide
        rw [if_neg (by rw [hnr]; simp)]
        obtain ⟨k', st', tail, h1, h2, h3, h4⟩ := ih (k + 1) [] hcs' (by simp)
        refine ⟨k', st', tail, ?_, h2, h3, fun h => absurd (h4 h).1 (by omega)⟩
        rw [← h1, List.replicate_succ']
        simp
      · have hn := hst n (by simp)
        have hnr : removable ((rootName :: (List.replicate k dotDotName ++ st0.concat n)).getLast?.getD []) = true := by
          rw [List.concat_eq_append, ← List.append_assoc, ← List.cons_append, List.getLast?_concat]; exact hn.2
        have hd : (rootName :: (List.replicate k dotDotName ++ st0.concat n)).dropLast =
            rootName :: (List.replicate k dotDotName ++ st0) := by
          rw [List.concat_eq_append, ← List.append_assoc, ← List.cons_append, List.dropLast_concat]
        rw [if_pos ⟨rfl, hnr⟩, hd, if_neg (by simp)]
        obtain ⟨k', st', tail, h1, h2, h3, h4⟩ := ih k st0 hcs' (fun x hx => hst x (by simp [hx]))
        refine ⟨k', st', tail, h1, h2, h3, fun h => ⟨(h4 h).1, ?_⟩⟩
        rw [hw, List.concat_eq_append, List.dropLast_concat]
        exact (h4 h).2
    · -- a name
      have e1 : c ≠ dotName := hc.1.2.2.1
      have e2 : c ≠ dotDotName := hc.1.2.2.2
      rw [if_neg (by simp [e1]), if_neg (by simp [e2])]
      obtain ⟨k', st', tail, h1, h2, h3, h4⟩ := ih k (st ++ [c]) hcs' (by
        intro n hn
        rcases List.mem_append.mp hn with hn | hn
        · exact hst n hn
        · rw [List.mem_singleton.mp hn]; exact hc)
      refine ⟨k', st', tail, ?_, h2, h3, fun h => ⟨(h4 h).1, ?_⟩⟩
      · rw [← h1]; simp
      · rw [walk, if_neg (by exact e1), if_neg (by exact e2)]; exact (h4 h).2

/-! ### The prefix test -/

theorem prefix_name {d n r s : Bytes} (hd : slash ∉ d) (hr : r = [] ∨ r.head? = some slash)
    (h : d ++ s <+: n ++ r) : d <+: n := by
  have h' : d <+: n ++ r := (List.prefix_append d s).trans h
  by_contra hn
  -- then `d` reaches beyond `n`, and the byte of `r` there is a slash
  have hlen : n.length < d.length := by
    by_contra hl
    exact hn (List.prefix_of_prefix_length_le h' (List.prefix_append n r) (by omega))
  have hnd : n <+: d := List.prefix_of_prefix_length_le (List.prefix_append n r) h' (by omega)
  obtain ⟨t, rfl⟩ := hnd
  have ht : t <+: r := (List.prefix_append_right_inj n).mp h'
  cases t with
  | nil => simp at hlen
  | cons a t =>
    obtain ⟨u, hu⟩ := ht
    subst hu
    simp only [List.cons_append, reduceCtorEq, List.head?_cons, Option.some.injEq, false_or] at hr
    exact hd (by simp [hr])

theorem absolute_head (ns : Place) : absolute ns = [] ∨ (absolute ns).head? = some slash := by
  cases ns with
  | nil => exact .inl rfl
  | cons n ns => exact .inr rfl

theorem absolute_prefix (ds : Place) : ∀ (ns : Place) (d : Bytes), (∀ x ∈ ds ++ [d], slash ∉ x) → (∀ x ∈ ns, slash ∉ x) →
    absolute (ds ++ [d]) <+: absolute ns → ∃ suffix rest, ns = ds ++ (d ++ suffix) :: rest := by
  induction ds with
  | nil =>
    intro ns d hd hns h
    cases ns with
    | nil => simp [absolute] at h
    | cons n ns =>
      rw [List.nil_append, absolute_cons, absolute_cons, List.cons_prefix_cons] at h
      obtain ⟨t, ht⟩ := prefix_name (hd d (by simp)) (absolute_head ns) h.2
      exact ⟨t, ns, by rw [ht]; rfl⟩
  | cons x ds ih =>
    intro ns d hd hns h
    cases ns with
    | nil => simp [absolute] at h
    | cons n ns =>
      rw [List.cons_append, absolute_cons, absolute_cons, List.cons_prefix_cons] at h
      have h1 := prefix_name (hd x (by simp)) (absolute_head ns) h.2
      obtain ⟨t, rfl⟩ := h1
      have h2 : absolute (ds ++ [d]) <+: t ++ absolute ns := by
        have := h.2
        rw [List.append_assoc] at this
        exact (List.prefix_append_right_inj x).mp this
      have ht : t = [] := by
        cases t with
        | nil => rfl
        | cons a t =>
          have hne : absolute (ds ++ [d]) ≠ [] := by
            cases ds <;> simp [absolute]
          rcases absolute_head (ds ++ [d]) with h0 | h0
          · exact absurd h0 hne
          · obtain ⟨u, hu⟩ := h2
            have : (absolute (ds ++ [d]) ++ u).head? = some slash := by rw [List.head?_append, h0]; rfl
            rw [hu] at this
            simp only [List.cons_append, List.head?_cons, Option.some.injEq] at this
            exact absurd (by simp [this]) (hns _ List.mem_cons_self)
      subst ht
      rw [List.nil_append] at h2
      obtain ⟨suffix, rest, hs⟩ := ih ns d (fun y hy => hd y (by simp only [List.cons_append, List.mem_cons]; exact .inr hy))
        (fun y hy => hns y (List.mem_cons_of_mem _ hy)) h2
      exact ⟨suffix, rest, by rw [hs]; simp⟩

/-- The elements of a path in a directory. -/
theorem elements_in (ds : Place) (rel : Bytes) (h0 : ds ≠ []) (hd : ∀ d ∈ ds, d ≠ [] ∧ slash ∉ d) (hr : rel ≠ []) :
    ∃ tail, elements (append (absolute ds) rel) = rootName :: (ds ++ names rel ++ tail) ∧ (tail = [] ∨ tail = [dotName]) ∧
      names (append (absolute ds) rel) = ds ++ names rel ∧ (append (absolute ds) rel).head? = some slash := by
  obtain ⟨d, ds', rfl⟩ := List.exists_cons_of_ne_nil h0
  have hlast : (absolute (d :: ds')).getLast? ≠ some slash := by
    rcases List.eq_nil_or_concat (d :: ds') with h | ⟨l, e, h⟩
    · cases h
    · rw [h] at hd ⊢
      have he := hd e (by simp)
      rw [List.concat_eq_append, absolute, List.flatMap_append, List.flatMap_singleton,
        getLast?_append_ne _ (by simp), List.getLast?_cons_of_ne_nil he.1]
      exact fun hh => he.2 (List.mem_of_getLast? hh)
  have hn : names (append (absolute (d :: ds')) rel) = (d :: ds') ++ names rel := by
    unfold append
    rw [if_neg hr]
    split
    · rename_i hh
      cases rel with
      | nil => cases hr rfl
      | cons a rel =>
        simp only [List.head?_cons, Option.some.injEq] at hh
        subst hh
        rw [names_absolute _ _ hd, names_cons_slash]
    · rw [if_neg (by intro h; rcases h with h | h; exact absurd h (by simp [absolute]); exact hlast h), names_absolute _ _ hd]
  have hh : (append (absolute (d :: ds')) rel).head? = some slash := by
    unfold append
    rw [if_neg hr]
    split
    · rw [absolute_cons]; rfl
    · split <;> (rw [absolute_cons]; rfl)
  refine ⟨if (append (absolute (d :: ds')) rel).getLast? = some slash ∧ names (append (absolute (d :: ds')) rel) ≠ [] then [dotName] else [],
    ?_, by split <;> simp, hn, hh⟩
  unfold elements
  rw [if_pos hh, hn]
  rfl

/-- A path in a directory, after normalising: if it begins like the path of the directory, then it leads into the
    directory or into one whose name begins with the directory's. -/
theorem normalize_prefix (ds : Place) (d rel : Bytes) (hd : ∀ n ∈ ds ++ [d], Plain n ∧ ¬ Dotted n) (hr : rel ≠ [])
    (ht : ∀ n ∈ names rel, ¬ Dotted n) (hp : absolute (ds ++ [d]) <+: normalize (append (absolute (ds ++ [d])) rel))
    (cwd : Place) :
    ∃ suffix rest, resolve cwd (normalize (append (absolute (ds ++ [d])) rel)) = ds ++ (d ++ suffix) :: rest ∧
      resolve cwd (append (absolute (ds ++ [d])) rel) = ds ++ (d ++ suffix) :: rest := by
  have hps : ∀ n ∈ ds ++ [d], n ≠ [] ∧ slash ∉ n := fun n hn => ⟨(hd n hn).1.1, (hd n hn).1.2.1⟩
  obtain ⟨tail, he, htail, hnames, hhead⟩ := elements_in (ds ++ [d]) rel (by simp) hps hr
  have htame : ∀ n ∈ ds ++ [d], Tame n := fun n hn => ⟨(hd n hn).1, removable_of_plain (hd n hn).1 (hd n hn).2⟩
  have hcs : ∀ c ∈ ds ++ [d] ++ names rel ++ tail, c = dotName ∨ c = dotDotName ∨ Tame c := by
    intro c hc
    rcases List.mem_append.mp hc with hc | hc
    · rcases List.mem_append.mp hc with hc | hc
      · exact .inr (.inr (htame c hc))
      · have h1 := mem_names hc
        by_cases e1 : c = dotName
        · exact .inl e1
        · by_cases e2 : c = dotDotName
          · exact .inr (.inl e2)
          · have hpl : Plain c := ⟨h1.1, h1.2, e1, e2⟩
            exact .inr (.inr ⟨hpl, removable_of_plain hpl (ht c hc)⟩)
    · rcases htail with rfl | rfl
      · cases hc
      · exact .inl (List.mem_singleton.mp hc)
  obtain ⟨k', st', tail', hl, htail', hst', hk⟩ := normLoop_tame _ 0 [] hcs (by simp)
  have hne : append (absolute (ds ++ [d])) rel ≠ [] := by
    intro h; rw [h] at hhead; cases hhead
  have hnorm : normalize (append (absolute (ds ++ [d])) rel) =
      join (rootName :: (List.replicate k' dotDotName ++ st' ++ tail')) := by
    unfold normalize
    rw [if_neg hne, he]
    simp only []
    rw [List.replicate_zero, List.nil_append] at hl
    have hfirst : ∀ cs, normLoop true [] (rootName :: cs) = normLoop false [rootName] cs := by
      intro cs
      rw [normLoop, if_neg (by rintro ⟨h, -⟩; exact absurd h (by decide)),
        if_neg (by rintro ⟨h, -⟩; exact absurd h (by decide)), List.nil_append]
    rw [hfirst, hl, if_neg (by simp)]
  have hok : ∀ x ∈ List.replicate k' dotDotName ++ st' ++ tail', x ≠ [] ∧ slash ∉ x := by
    intro x hx
    rcases List.mem_append.mp hx with hx | hx
    · rcases List.mem_append.mp hx with hx | hx
      · rw [List.eq_of_mem_replicate hx]; decide
      · exact ⟨(hst' x hx).1.1, (hst' x hx).1.2.1⟩
    · rcases htail' with rfl | rfl
      · cases hx
      · rw [List.mem_singleton.mp hx]; decide
  rw [hnorm] at hp ⊢
  have hdd := hps d (by simp)
  have hlen : 2 ≤ (absolute (ds ++ [d])).length := by
    rw [absolute, List.flatMap_append, List.length_append, List.flatMap_singleton, List.length_cons]
    have := List.length_pos_iff.mpr hdd.1
    omega
  cases hns : List.replicate k' dotDotName ++ st' ++ tail' with
  | nil =>
    rw [hns] at hp
    have := hp.length_le
    have e : (join [rootName]).length = 1 := by decide
    omega
  | cons n ns =>
    rw [hns] at hp hok
    rw [join_root n ns hok] at hp ⊢
    have hplain := fun x hx => (hok x hx).2
    obtain ⟨suffix, rest, hs⟩ := absolute_prefix ds (n :: ns) d (fun x hx => (hps x hx).2) hplain hp
    -- no ".." is left
    have hk0 : k' = 0 := by
      cases k' with
      | zero => rfl
      | succ k' =>
        exfalso
        have hn : n = dotDotName := by
          rw [List.replicate_succ, List.cons_append, List.cons_append] at hns
          exact (List.cons.inj hns).1.symm
        cases ds with
        | nil =>
          have h1 : n = d ++ suffix := by rw [List.nil_append] at hs; exact (List.cons.inj hs).1
          have h2 := (hd d (by simp)).1
          rw [hn] at h1
          obtain ⟨h3, -, h4, h5⟩ := h2
          match d, h3 with
          | [a], _ => simp only [dotDotName, List.singleton_append, List.cons.injEq] at h1; exact h4 (by rw [← h1.1])
          | a :: b :: d', _ =>
            simp only [dotDotName, List.cons_append, List.cons.injEq] at h1
            obtain ⟨rfl, rfl, h6⟩ := h1
            have : d' = [] := (List.append_eq_nil_iff.mp h6.symm).1
            exact h5 (by rw [this])
        | cons x ds =>
          have h1 : n = x := by rw [List.cons_append] at hs; exact (List.cons.inj hs).1
          exact (hd x (by simp)).1.2.2.2 (by rw [← h1, hn]; rfl)
    subst hk0
    obtain ⟨-, hw⟩ := hk rfl
    rw [List.replicate_zero, List.nil_append] at hns
    -- the "." at the end is not among the first names
    have hwalk : ∀ (l : List Bytes) (at0 : Place), (∀ x ∈ l, Plain x) → walk at0 l = at0 ++ l := by
      intro l
      induction l with
      | nil => intro at0 _; simp [walk]
      | cons y l ih =>
        intro at0 hl
        have hy := hl y List.mem_cons_self
        rw [walk, if_neg hy.2.2.1, if_neg hy.2.2.2, ih _ (fun z hz => hl z (List.mem_cons_of_mem _ hz))]
        simp
    have hwdot : ∀ (l t : List Bytes) (at0 : Place), (∀ x ∈ l, Plain x) → (t = [] ∨ t = [dotName]) →
        walk at0 (l ++ t) = at0 ++ l := by
      intro l
      induction l with
      | nil =>
        intro t at0 _ ht
        rcases ht with rfl | rfl
        · simp [walk]
        · simp [walk, dotName]
      | cons y l ih =>
        intro t at0 hl ht
        have hy := hl y List.mem_cons_self
        rw [List.cons_append, walk, if_neg hy.2.2.1, if_neg hy.2.2.2, ih _ _ (fun z hz => hl z (List.mem_cons_of_mem _ hz)) ht]
        simp
    have hst : ∃ rest', st' = ds ++ (d ++ suffix) :: rest' := by
      rcases htail' with rfl | rfl
      · rw [List.append_nil] at hns; exact ⟨rest, by rw [hns, hs]⟩
      · rcases List.eq_nil_or_concat rest with rfl | ⟨r0, e, rfl⟩
        · exfalso
          rw [← hns] at hs
          have h1 := congrArg List.getLast? hs
          simp only [List.getLast?_concat, Option.some.injEq] at h1
          have h2 := (hd d (by simp)).1
          match d, h2 with
          | [], h2 => exact h2.1 rfl
          | [a], h2 => simp only [dotName, List.singleton_append, List.cons.injEq] at h1; exact h2.2.2.1 (by rw [← h1.1])
          | a :: b :: d', _ => simp [dotName] at h1
        · refine ⟨r0, ?_⟩
          rw [← hns, List.concat_eq_append] at hs
          have : ds ++ (d ++ suffix) :: (r0 ++ [e]) = (ds ++ (d ++ suffix) :: r0) ++ [e] := by simp
          rw [this] at hs
          exact (List.append_inj' hs rfl).1
    obtain ⟨rest', hst⟩ := hst
    refine ⟨suffix, rest', ?_, ?_⟩
    · rw [resolve_eq, if_pos (by rw [absolute_cons]; rfl)]
      have hnm : names (absolute (n :: ns)) = st' ++ tail' := by
        have h1 : ∀ l : List Bytes, (∀ x ∈ l, x ≠ [] ∧ slash ∉ x) → names (absolute l) = l := by
          intro l
          induction l with
          | nil => intro _; rfl
          | cons y l ih =>
            intro hl
            have hy := hl y List.mem_cons_self
            rw [absolute_cons, names_cons_slash]
            have ih' := ih (fun z hz => hl z (List.mem_cons_of_mem _ hz))
            rw [names, namesFrom_name _ _ hy.2, List.nil_append]
            cases l with
            | nil => simp [absolute, namesFrom, hy.1]
            | cons z l =>
              rw [absolute_cons, namesFrom_slash _ _ hy.1, ← ih', absolute_cons, names_cons_slash]
        rw [h1 _ hok, hns]
      rw [hnm, hwdot st' tail' [] (fun x hx => (hst' x hx).1) htail', List.nil_append, hst]
    · rw [resolve_eq, if_pos hhead, hnames]
      have hw' : walk [] (ds ++ [d] ++ names rel) = walk [] (ds ++ [d] ++ names rel ++ tail) := by
        have : ∀ (l t : List Bytes) (at0 : Place), (t = [] ∨ t = [dotName]) → walk at0 (l ++ t) = walk at0 l := by
          intro l
          induction l with
          | nil =>
            intro t at0 ht
            rcases ht with rfl | rfl
            · simp
            · simp [walk, dotName]
          | cons y l ih =>
            intro t at0 ht
            rw [List.cons_append, walk, walk]
            split
            · exact ih _ _ ht
            · split <;> exact ih _ _ ht
        exact (this _ _ _ htail).symm
      rw [hw', hw, hst]

/-! ### Normalising does not change where a path leads -/

theorem walk_append (l l' : List Bytes) : ∀ at0, walk at0 (l ++ l') = walk (walk at0 l) l' := by
  induction l with
  | nil => intro at0; rfl
  | cons y l ih =>
    intro at0
    rw [List.cons_append, walk, walk]
    split
    · exact ih _
    · split <;> exact ih _

theorem walk_dot (l : List Bytes) (at0 : Place) : walk at0 (l ++ [dotName]) = walk at0 l := by
  rw [walk_append]; simp [walk, dotName]

theorem walk_dots {t : List Bytes} (ht : t = [] ∨ t = [dotName]) (l : List Bytes) (at0 : Place) :
    walk at0 (l ++ t) = walk at0 l := by
  rcases ht with rfl | rfl
  · rw [List.append_nil]
  · exact walk_dot l at0

/-- Where a list of elements leads. -/
def place (b : Place) : List Bytes → Place
  | [] => b
  | e :: es => if e = rootName then walk [] es else walk b (e :: es)

/-- A name as it is in a path: not empty and without slash. -/
def IsName (n : Bytes) : Prop := n ≠ [] ∧ slash ∉ n

instance (n : Bytes) : Decidable (IsName n) := inferInstanceAs (Decidable (_ ∧ _))

theorem IsName.ne_root {n : Bytes} (h : IsName n) : n ≠ rootName := by
  rintro rfl; exact h.2 (by decide)

/-- Only the first element may be the root directory. -/
def Elements (es : List Bytes) : Prop := match es with
  | [] => True
  | e :: es => (e = rootName ∨ IsName e) ∧ ∀ n ∈ es, IsName n

theorem place_names (b : Place) {es : List Bytes} (h : ∀ n ∈ es, IsName n) : place b es = walk b es := by
  cases es with
  | nil => rfl
  | cons e es => rw [place, if_neg (h e List.mem_cons_self).ne_root]

theorem removable_props {n : Bytes} (h : removable n = true) : n ≠ [] ∧ n ≠ dotName ∧ n ≠ dotDotName ∧ n ≠ rootName := by
  refine ⟨?_, ?_, ?_, ?_⟩ <;> rintro rfl <;> exact absurd h (by decide)

theorem place_normLoop (b : Place) (cs : List Bytes) : ∀ (first : Bool) (temp : List Bytes), Elements (temp ++ cs) →
    Elements (normLoop first temp cs) ∧ place b (normLoop first temp cs) = place b (temp ++ cs) := by
  induction cs with
  | nil => intro first temp h; rw [List.append_nil] at h ⊢; exact ⟨h, rfl⟩
  | cons c cs ih =>
    intro first temp h
    rw [normLoop]
    split
    · rename_i hc
      have hE : Elements (temp ++ cs) := by
        cases temp with
        | nil =>
          have h2 : ∀ n ∈ cs, IsName n := h.2
          cases cs with
          | nil => trivial
          | cons x cs => exact ⟨.inr (h2 x List.mem_cons_self), fun n hn => h2 n (List.mem_cons_of_mem _ hn)⟩
        | cons t temp =>
          rw [List.cons_append] at h ⊢
          refine ⟨h.1, fun n hn => h.2 n ?_⟩
          rw [List.mem_append] at hn
          simp only [List.mem_append, List.mem_cons]
          exact hn.imp id .inr
      obtain ⟨h1, h2⟩ := ih false temp hE
      refine ⟨h1, h2.trans ?_⟩
      have hw : ∀ (l : List Bytes) at0, walk at0 (l ++ cs) = walk at0 (l ++ c :: cs) := by
        intro l at0
        rw [walk_append, walk_append, hc.1, walk, if_pos (by rfl)]
      cases temp with
      | nil =>
        have h2 : ∀ n ∈ cs, IsName n := h.2
        rw [List.nil_append, List.nil_append, place_names b h2, place, if_neg (by rw [hc.1]; decide)]
        exact hw [] b
      | cons t temp =>
        rw [List.cons_append, List.cons_append, place, place]
        split
        · exact hw temp []
        · exact hw (t :: temp) b
    · split
      · rename_i hc
        obtain ⟨rfl, hr⟩ := hc
        rcases List.eq_nil_or_concat temp with rfl | ⟨t0, n, rfl⟩
        · exact absurd hr (by decide)
        · rw [List.concat_eq_append] at h hr ⊢
          rw [List.getLast?_concat, Option.getD_some] at hr
          obtain ⟨p1, p2, p3, p4⟩ := removable_props hr
          rw [List.dropLast_concat]
          have hw : ∀ (l : List Bytes) at0, walk at0 (l ++ cs) = walk at0 (l ++ n :: dotDotName :: cs) := by
            intro l at0
            rw [walk_append, walk_append, walk, if_neg (by exact p2), if_neg (by exact p3), walk, if_neg (by decide), if_pos (by rfl),
              List.dropLast_concat]
          have hcsn : ∀ x ∈ cs, IsName x := by
            intro x hx
            cases t0 with
            | nil => exact h.2 x (by simp [hx])
            | cons t t0 => exact h.2 x (by simp [hx])
          have hE : Elements (t0 ++ cs) := by
            cases t0 with
            | nil =>
              cases cs with
              | nil => trivial
              | cons x cs => exact ⟨.inr (hcsn x List.mem_cons_self), fun y hy => hcsn y (List.mem_cons_of_mem _ hy)⟩
            | cons t t0 =>
              rw [List.cons_append, List.cons_append] at h
              rw [List.cons_append]
              refine ⟨h.1, fun x hx => ?_⟩
              rw [List.mem_append] at hx
              rcases hx with hx | hx
              · exact h.2 x (by simp [hx])
              · exact hcsn x hx
          have hplace : place b (t0 ++ cs) = place b (t0 ++ [n] ++ dotDotName :: cs) := by
            rw [List.append_assoc, List.singleton_append]
            cases t0 with
            | nil => rw [List.nil_append, List.nil_append, place_names b hcsn, place, if_neg p4]; exact hw [] b
            | cons t t0 =>
              rw [List.cons_append, List.cons_append, place, place]
              split
              · exact hw t0 []
              · exact hw (t :: t0) b
          split
          · rename_i hq
            obtain ⟨rfl, rfl⟩ := hq
            obtain ⟨h1, h2⟩ := ih false [dotName] ⟨.inr (by decide), by simp; decide⟩
            refine ⟨h1, h2.trans ?_⟩
            rw [← hplace]
            simp [place, walk, dotName, rootName]
          · obtain ⟨h1, h2⟩ := ih false t0 hE
            exact ⟨h1, h2.trans hplace⟩
      · have e : temp ++ [c] ++ cs = temp ++ c :: cs := by simp
        obtain ⟨h1, h2⟩ := ih false (temp ++ [c]) (by rw [e]; exact h)
        exact ⟨h1, h2.trans (by rw [e])⟩

theorem names_absolute' (l : List Bytes) (h : ∀ x ∈ l, IsName x) : names (absolute l) = l := by
  induction l with
  | nil => rfl
  | cons y l ih =>
    have hy := h y List.mem_cons_self
    have ih' := ih (fun z hz => h z (List.mem_cons_of_mem _ hz))
    rw [absolute_cons, names_cons_slash, names, namesFrom_name _ _ hy.2, List.nil_append]
    cases l with
    | nil => simp [absolute, namesFrom, hy.1]
    | cons z l => rw [absolute_cons, namesFrom_slash _ _ hy.1, ← ih', absolute_cons, names_cons_slash]

theorem head_name {n : Bytes} (h : IsName n) (r : Bytes) : (n ++ r).head? ≠ some slash := by
  obtain ⟨h0, h1⟩ := h
  cases n with
  | nil => exact absurd rfl h0
  | cons a n => intro hh; simp only [List.cons_append, List.head?_cons, Option.some.injEq] at hh; exact h1 (by simp [hh])

theorem resolve_join (b : Place) {es : List Bytes} (h : Elements es) (hne : es ≠ []) : resolve b (join es) = place b es := by
  cases es with
  | nil => cases hne rfl
  | cons e es =>
    rcases h.1 with rfl | he
    · rw [place, if_pos rfl]
      cases es with
      | nil => rw [resolve_eq, if_pos (by decide)]; decide
      | cons n ns =>
        rw [join_root n ns h.2, resolve_eq, if_pos (by rw [absolute_cons]; rfl), names_absolute' _ h.2]
    · have hj : join (e :: es) = e ++ absolute es := by
        rw [join, List.foldl_cons]
        have : append [] e = e := by
          unfold append
          rw [if_neg he.1, if_neg (by have := head_name he []; rwa [List.append_nil] at this), if_pos (.inl rfl), List.nil_append]
        rw [this, foldl_append_absolute es h.2 e he.1 (fun hh => he.2 (List.mem_of_getLast? hh))]
      rw [place, if_neg he.ne_root, hj, resolve_eq, if_neg (head_name he _)]
      congr 1
      rw [names, namesFrom_name _ _ he.2, List.nil_append]
      cases es with
      | nil => simp [absolute, namesFrom, he.1]
      | cons z l =>
        have := names_absolute' (z :: l) h.2
        rw [absolute_cons, names_cons_slash] at this
        rw [absolute_cons, namesFrom_slash _ _ he.1, this]

theorem elements_ok (p : Bytes) : Elements (elements p) := by
  have hn : ∀ n ∈ names p, IsName n := fun n h => mem_names h
  have hall : ∀ n ∈ names p ++ (if p.getLast? = some slash ∧ names p ≠ [] then [dotName] else []), IsName n := by
    intro n hh
    rcases List.mem_append.mp hh with hh | hh
    · exact hn n hh
    · split at hh
      · rw [List.mem_singleton.mp hh]; decide
      · cases hh
  unfold elements
  rw [List.append_assoc]
  generalize names p ++ (if p.getLast? = some slash ∧ names p ≠ [] then [dotName] else []) = l at hall
  split
  · exact ⟨.inl rfl, hall⟩
  · cases l with
    | nil => trivial
    | cons x l => exact ⟨.inr (hall x List.mem_cons_self), fun y hy => hall y (List.mem_cons_of_mem _ hy)⟩

theorem place_elements (b : Place) (p : Bytes) : place b (elements p) = resolve b p := by
  rw [resolve_eq]
  have hn : ∀ n ∈ names p, IsName n := fun n h => mem_names h
  unfold elements
  have ht : (if p.getLast? = some slash ∧ names p ≠ [] then [dotName] else []) = [] ∨
      (if p.getLast? = some slash ∧ names p ≠ [] then [dotName] else []) = [dotName] := by split <;> simp
  generalize (if p.getLast? = some slash ∧ names p ≠ [] then [dotName] else []) = t at ht
  rw [List.append_assoc]
  split
  · rw [List.singleton_append, place, if_pos rfl, walk_dots ht]
  · rw [List.nil_append, place_names, walk_dots ht]
    intro n hh
    rcases List.mem_append.mp hh with hh | hh
    · exact hn n hh
    · rcases ht with rfl | rfl
      · cases hh
      · rw [List.mem_singleton.mp hh]; decide

theorem resolve_normalize (b : Place) (p : Bytes) : resolve b (normalize p) = resolve b p := by
  unfold normalize
  split
  · rename_i h; rw [h]
  · simp only []
    obtain ⟨h1, h2⟩ := place_normLoop b (elements p) true [] (elements_ok p)
    rw [List.nil_append, place_elements] at h2
    split
    · rename_i h
      rw [h] at h2
      rw [resolve_join b (es := [dotName]) ⟨.inr (by decide), by simp⟩ (by simp), ← h2]
      simp [place, walk, dotName, rootName]
    · rename_i h
      rw [resolve_join b h1 h, h2]

end Verif.Path
