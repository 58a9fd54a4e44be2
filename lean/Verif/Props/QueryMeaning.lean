import Verif.Lemmas.QueryMeaning
/-
C106: what the text of a query says, for every text. The specification is `Spec/Query`.
-/
namespace Verif.Props.QueryMeaning
open Verif Verif.Query Verif.UrlCodec Verif.Spec.Query

/-- **C106 (the texts that are accepted).** The pairs of the text are added, in their order, to what the dictionary holds. -/
theorem accepted (d : Dict) (t : Bytes) (h : Acceptable t) : parseUrlEncoded d t = (true, d ++ pairs t) := by
  obtain ⟨x, r, e⟩ := split_cons (c! "&") (kept t)
  have := (adds (kept t) (fun c hc => kept_mem hc) { dict := d } x r e).1 rfl rfl (by simp) (by simp)
  unfold Adds at this
  rw [← loop_kept t] at this
  have hA : FieldOk x ∧ RestOk r (kept t) := (acceptable_iff e).1 h
  unfold parseUrlEncoded
  split
  · rename_i d' hl
    rw [hl] at this
    exact absurd hA this.1
  · rename_i s hl
    rw [hl] at this
    have h2 := this.2
    unfold fin at h2
    rw [h2]
    unfold pairs fields
    rw [e]
    rfl

/-- **C106 (the texts that are refused).** All others; the first pairs may have been added. -/
theorem refused (d : Dict) (t : Bytes) (h : ¬Acceptable t) :
    ∃ l, l <+: pairs t ∧ parseUrlEncoded d t = (false, d ++ l) := by
  obtain ⟨x, r, e⟩ := split_cons (c! "&") (kept t)
  have := (adds (kept t) (fun c hc => kept_mem hc) { dict := d } x r e).1 rfl rfl (by simp) (by simp)
  unfold Adds at this
  rw [← loop_kept t] at this
  unfold parseUrlEncoded
  split
  · rename_i d' hl
    rw [hl] at this
    obtain ⟨_, l, hpre, rfl⟩ := this
    refine ⟨l.map dec, ?_, rfl⟩
    unfold pairs fields
    rw [e]
    exact List.IsPrefix.map dec hpre
  · rename_i s hl
    rw [hl] at this
    exact absurd ((acceptable_iff e).2 this.1) h

/-- **C106 (what was added).** A text is refused at its first bad character, and what had been said to its end by then has
    been added, no more and no less. -/
theorem refused_exact (d : Dict) (t : Bytes) (h : ¬Acceptable t) : ∃ u c w, t = u ++ c :: w ∧
    Acceptable u ∧ ¬Acceptable (u ++ [c]) ∧ parseUrlEncoded d t = (false, d ++ finished u) := by
  obtain ⟨l, _, e⟩ := refused d t h
  unfold parseUrlEncoded at e
  split at e
  · rename_i d' hl
    obtain ⟨u, c, w, s1, rfl, hu, hst, hd⟩ := loop_stops t _ _ hl
    have huA : Acceptable u := by
      refine Classical.byContradiction fun hn => ?_
      obtain ⟨l, _, e⟩ := refused d u hn
      unfold parseUrlEncoded at e
      rw [hu] at e
      cases (Prod.mk.inj e).1
    refine ⟨u, c, w, rfl, huA, fun hA => ?_, ?_⟩
    · have := accepted d _ hA
      unfold parseUrlEncoded at this
      rw [loop_append, hu] at this
      dsimp only at this
      rw [loop, hst] at this
      cases (Prod.mk.inj this).1
    · have ha := accepted d u huA
      unfold parseUrlEncoded at ha ⊢
      rw [hu] at ha
      rw [hl, hd]
      have hn := (loop_name (kept u) (fun c hc => kept_mem hc) d s1 (by rw [← loop_kept]; exact hu)).1
      have ha := (Prod.mk.inj ha).2
      refine Prod.ext rfl ?_
      show s1.dict = d ++ finished u
      have hne : fields u ≠ [] := List.splitOnP_ne_nil _ _
      have hlast : lastField (kept u) = (fields u).getLast hne := by
        show (fields u).getLast?.getD [] = _
        rw [List.getLast?_eq_some_getLast hne]
        rfl
      have hp : pairs u = ((fields u).dropLast.flatMap pairsOf ++ pairsOf (lastField (kept u))).map dec := by
        unfold pairs
        conv => lhs; rw [← List.dropLast_concat_getLast hne]
        rw [List.flatMap_append, hlast, List.flatMap_singleton]
        rfl
      have hf : finished u = ((fields u).dropLast.flatMap pairsOf ++ (pairsOf (lastField (kept u))).dropLast).map dec := by
        unfold finished
        rw [List.getLast?_eq_some_getLast hne, hlast]
        rfl
      rw [hp] at ha
      rw [hf]
      by_cases hz : s1.name = []
      · have : pairsOf (lastField (kept u)) = [] := by
          unfold pairsOf
          rw [if_pos (by rw [← hn]; exact hz)]
        rw [this] at ha ⊢
        rw [if_pos (by simp [hz])] at ha
        exact ha
      · have hpn : pairsOf (lastField (kept u)) ≠ [] := by
          unfold pairsOf
          rw [if_neg (by rw [← hn]; exact hz)]
          obtain ⟨v, vs, ev⟩ := split_cons (c! ",") (((lastField (kept u)).dropWhile (· != c! "=")).drop 1)
          unfold valuesOf
          rw [ev]
          simp
        rw [if_neg (by simp [hz])] at ha
        conv at ha => rhs; rw [← List.dropLast_concat_getLast hpn]
        rw [← List.append_assoc, List.map_append, ← List.append_assoc] at ha
        exact (List.append_inj' ha rfl).1
  · cases (Prod.mk.inj e).1

/-- **C106 (which).** -/
theorem accepted_iff (d : Dict) (t : Bytes) : (parseUrlEncoded d t).1 = true ↔ Acceptable t := by
  constructor
  · intro h
    refine Classical.byContradiction fun hn => ?_
    obtain ⟨l, _, e⟩ := refused d t hn
    rw [e] at h
    cases h
  · intro h
    rw [accepted d t h]

/-- Nothing that was in the dictionary is lost, whatever the text. -/
theorem kept_before (d : Dict) (t : Bytes) : d <+: (parseUrlEncoded d t).2 := by
  by_cases h : Acceptable t
  · rw [accepted d t h]
    exact List.prefix_append _ _
  · obtain ⟨l, _, e⟩ := refused d t h
    rw [e]
    exact List.prefix_append _ _

/-- Line ends and tabs count for nothing. -/
theorem blanks_ignored (d : Dict) (t : Bytes) : parseUrlEncoded d t = parseUrlEncoded d (kept t) := by
  unfold parseUrlEncoded
  rw [loop_kept t]

example : Acceptable (b! "a=1&b\n=x%26,y&&c&=z&d=e=f") := by
  refine ⟨by decide +kernel, by decide +kernel, by decide +kernel⟩
example : pairs (b! "a=1&b\n=x%26,y&&c&=z&d=e=f") =
    [(b! "a", b! "1"), (b! "b", b! "x&"), (b! "b", b! "y"), (b! "c", []), (b! "d", b! "e=f")] := by decide +kernel
example : parseUrlEncoded [] (b! "a=1&b\n=x%26,y&&c&=z&d=e=f") =
    (true, [(b! "a", b! "1"), (b! "b", b! "x&"), (b! "b", b! "y"), (b! "c", []), (b! "d", b! "e=f")]) := by decide +kernel
example : ¬Acceptable (b! "a=1,2" ++ [0x7f]) := fun h => absurd (h.printable 0x7f (by decide +kernel)) (by decide +kernel)
example : parseUrlEncoded [] (b! "a=1,2" ++ [0x7f]) = (false, [(b! "a", b! "1")]) := by decide +kernel
example : finished (b! "a=1,2") = [(b! "a", b! "1")] ∧ finished (b! "a=1,2&b") = [(b! "a", b! "1"), (b! "a", b! "2")] ∧
    finished (b! "a=1&=2,") = [(b! "a", b! "1")] := by decide +kernel

end Verif.Props.QueryMeaning
