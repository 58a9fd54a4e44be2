import Verif.Lemmas.Multipart
import Verif.Spec.FormBody
import Mathlib.Tactic.SplitIfs
/-
Lemmas for `Props/FormBody`: what the loop of `parse_multipart_form_data` keeps true for any body.
-/
namespace Verif.Multipart
open Verif Verif.Spec.FormBody

theorem findSub_none {pat t : Bytes} (h : findSub pat t = none) : ¬ pat <:+: t := by
  rintro ⟨a, b, rfl⟩
  have : ∀ a : Bytes, findSub pat (a ++ pat ++ b) ≠ none := by
    intro a
    induction a with
    | nil =>
      rw [List.nil_append, findSub_of 0 (Nat.zero_le _) (by simp) (fun i hi => absurd hi (Nat.not_lt_zero _))]
      simp
    | cons c a ih =>
      intro h
      rw [List.cons_append, List.cons_append, findSub] at h
      split at h
      · cases h
      · exact ih (Option.map_eq_none_iff.1 h)
  exact this a h

/-- The place that is found: the end of the body or a delimiter, and no delimiter before. -/
theorem search_spec {body bd : Bytes} {i : Nat} (hi : i ≤ body.length) :
    search body bd i ≤ body.length ∧
    (body.drop (search body bd i) = [] ∨ bd <+: body.drop (search body bd i)) ∧
    ∀ j ≤ search body bd i, bd ≠ [] → ¬ bd <:+: (body.drop i).take (j - i) := by
  unfold search
  cases h : findSub bd (body.drop i) with
  | none =>
    refine ⟨Nat.le_refl _, .inl (by simp), fun j _ _ hh => findSub_none h (hh.trans (List.take_prefix _ _).isInfix)⟩
  | some k =>
    obtain ⟨h1, h2, h3⟩ := findSub_some h
    dsimp only
    rw [List.length_drop] at h1
    refine ⟨by omega, .inr (by rw [List.drop_drop] at h2; exact h2), fun j hj hne hh => ?_⟩
    obtain ⟨a, b, e⟩ := hh
    have hl := congrArg List.length e
    simp only [List.length_append, List.length_take, List.length_drop] at hl
    have hpos : 0 < bd.length := List.length_pos_iff.2 hne
    refine h3 a.length (by omega) ?_
    have e2 : body.drop i = a ++ (bd ++ (b ++ (body.drop i).drop (j - i))) := by
      conv => lhs; rw [← List.take_append_drop (j - i) (body.drop i), ← e]
      simp
    rw [e2, List.drop_left' rfl]
    exact List.prefix_append _ _

/-- What the local variables hold is text of one line. -/
structure Lines (s : St) : Prop where
  value : OneLine s.headerValue
  type : OneLine s.contentType
  name : OneLine s.fieldName
  quote : c! "\"" ∉ s.fieldName

theorem oneLine_nil : OneLine [] := nofun

theorem oneLine_snoc {t : Bytes} {c : UInt8} (h : OneLine t) (hc : ¬((c = 0x0d || c = 0x0a) = true)) : OneLine (t ++ [c]) := by
  simp only [Bool.or_eq_true, decide_eq_true_eq, not_or] at hc
  intro x hx
  rcases List.mem_append.1 hx with hx | hx
  · exact h x hx
  · rw [List.mem_singleton.1 hx]
    exact hc

theorem dispositionName_line {v : Bytes} (h : OneLine v) : OneLine (dispositionName v) ∧ c! "\"" ∉ dispositionName v := by
  unfold dispositionName
  split
  · constructor
    · intro x hx
      exact h x (List.mem_of_mem_drop ((List.takeWhile_prefix _).subset hx))
    · intro hx
      have := List.all_eq_true.1 List.all_takeWhile _ hx
      simp at this
  · exact ⟨oneLine_nil, List.not_mem_nil⟩

theorem endHeader_lines {s : St} (h : Lines s) : Lines (endHeader s) := by
  unfold endHeader
  dsimp only
  split_ifs
  · exact ⟨oneLine_nil, h.value, h.name, h.quote⟩
  · obtain ⟨h1, h2⟩ := dispositionName_line h.value
    refine ⟨oneLine_nil, h.type, ?_, ?_⟩
    · intro x hx
      rcases List.mem_append.1 hx with hx | hx
      · exact h.name x hx
      · exact h1 x hx
    · intro hx
      rcases List.mem_append.1 hx with hx | hx
      · exact h.quote hx
      · exact h2 hx
  · exact ⟨oneLine_nil, h.type, h.name, h.quote⟩

theorem endHeader_dict (s : St) : (endHeader s).dict = s.dict := by
  unfold endHeader
  dsimp only
  split_ifs <;> rfl

/-- Where the next stretch can begin. -/
def least (bd : Bytes) (s : St) (p : Nat) : Nat := if s.st = .start then p + bd.length else p

/-- One iteration adds nothing, or one honest entry of what it goes over. -/
theorem step_honest {body bd : Bytes} (hbd : bd ≠ []) {s : St} {p : Nat} {c : UInt8} (hp : p < body.length) (hL : Lines s)
    {s' : St} {p' : Nat} (h : step body bd s p c = .next s' p') : Lines s' ∧ least bd s p ≤ least bd s' p' ∧
    (s'.dict = s.dict ∨ ∃ x : Piece, s'.dict = s.dict ++ [x.entry] ∧ least bd s p ≤ x.first ∧ x.behind ≤ p' ∧
      s'.st = .start ∧ (body.drop p' = [] ∨ bd <+: body.drop p') ∧ x.Honest bd body) := by
  have hlen : 0 < bd.length := List.length_pos_iff.2 hbd
  have hse := search_ge body bd p (Nat.le_of_lt hp)
  unfold step at h
  cases hst : s.st <;> simp only [hst] at h
  case start =>
    cases h
    exact ⟨⟨oneLine_nil, oneLine_nil, oneLine_nil, List.not_mem_nil⟩, by simp only [least, hst, reduceCtorEq, ↓reduceIte]; omega, .inl rfl⟩
  case headerCr =>
    split_ifs at h <;> cases h <;> exact ⟨⟨hL.value, hL.type, hL.name, hL.quote⟩, by simp only [least, hst, reduceCtorEq, ↓reduceIte]; omega, .inl rfl⟩
  case headerLf =>
    split_ifs at h
    cases h
    exact ⟨⟨hL.value, hL.type, hL.name, hL.quote⟩, by simp only [least, hst, reduceCtorEq, ↓reduceIte]; omega, .inl rfl⟩
  case headerName =>
    split_ifs at h <;> cases h <;> exact ⟨⟨hL.value, hL.type, hL.name, hL.quote⟩, by simp only [least, hst, reduceCtorEq, ↓reduceIte]; omega, .inl rfl⟩
  case headerSpace =>
    split_ifs at h with h1 h2 h3
    · cases h; exact ⟨⟨hL.value, hL.type, hL.name, hL.quote⟩, by simp only [least, hst, reduceCtorEq, ↓reduceIte]; omega, .inl rfl⟩
    · cases h; exact ⟨⟨hL.value, hL.type, hL.name, hL.quote⟩, by simp only [least, hst, reduceCtorEq, ↓reduceIte]; omega, .inl rfl⟩
    · cases h
      exact ⟨⟨oneLine_snoc hL.value (by simp [h1, h2]), hL.type, hL.name, hL.quote⟩, by simp only [least, hst, reduceCtorEq, ↓reduceIte]; omega, .inl rfl⟩
    · cases h; exact ⟨⟨hL.value, hL.type, hL.name, hL.quote⟩, by simp only [least, hst, reduceCtorEq, ↓reduceIte]; omega, .inl rfl⟩
  case headerValue =>
    split_ifs at h with h1 h2
    all_goals cases h
    · have := endHeader_lines hL
      exact ⟨⟨this.value, this.type, this.name, this.quote⟩, by simp only [least, hst, reduceCtorEq, ↓reduceIte]; omega, .inl (endHeader_dict s)⟩
    · have := endHeader_lines hL
      exact ⟨⟨this.value, this.type, this.name, this.quote⟩, by simp only [least, hst, reduceCtorEq, ↓reduceIte]; omega, .inl (endHeader_dict s)⟩
    · exact ⟨⟨oneLine_snoc hL.value h1, hL.type, hL.name, hL.quote⟩, by simp only [least, hst, reduceCtorEq, ↓reduceIte]; omega, .inl rfl⟩
  case headerLastLf =>
    split_ifs at h <;> cases h <;> exact ⟨⟨hL.value, hL.type, hL.name, hL.quote⟩, by simp only [least, hst, reduceCtorEq, ↓reduceIte]; omega, .inl rfl⟩
  case fieldData =>
    obtain ⟨g1, g2, g3⟩ := search_spec (bd := bd) (Nat.le_of_lt hp)
    obtain ⟨n, hn⟩ : ∃ n, n = search body bd p := ⟨_, rfl⟩
    rw [← hn] at h hse g1 g2 g3
    by_cases hn2 : n < 2
    · rw [if_pos hn2] at h; cases h
    rw [if_neg hn2] at h
    obtain ⟨e, he⟩ : ∃ e, (if (body[n - 2]? == some 0x0d && body[n - 1]? == some 0x0a) = true then n - 2 else n) = e := ⟨_, rfl⟩
    rw [he] at h
    by_cases hlt : e < p
    · rw [if_pos hlt] at h; cases h
    rw [if_neg hlt] at h
    obtain ⟨e1, e2⟩ := Step.next.inj h
    rw [← e1, ← e2]
    have hen : e ≤ n := by rw [← he]; split_ifs <;> omega
    refine ⟨⟨hL.value, hL.type, hL.name, hL.quote⟩, ?_,
      .inr ⟨⟨p, e, s.fieldName, _⟩, rfl, by simp [least, hst], hen, rfl, g2, ?_⟩⟩
    · simp only [least, hst, reduceCtorEq, ↓reduceIte]; omega
    refine ⟨⟨Nat.le_of_not_lt hlt, Nat.le_trans hen g1⟩, ?_, g3 e hen hbd, ⟨body.drop n, g2, ?_⟩, hL.name, hL.quote⟩
    · dsimp only [Piece.data]
      cases s.mime64
      · exact .inl rfl
      · exact .inr ⟨s.contentType, hL.type, rfl⟩
    · dsimp only
      by_cases hcr : (body[n - 2]? == some 0x0d && body[n - 1]? == some 0x0a) = true
      · rw [if_pos hcr] at he
        rw [Bool.and_eq_true, beq_iff_eq, beq_iff_eq] at hcr
        obtain ⟨c1, c2⟩ := hcr
        obtain ⟨l1, e1⟩ := List.getElem?_eq_some_iff.1 c1
        obtain ⟨l2, e2⟩ := List.getElem?_eq_some_iff.1 c2
        refine .inr ?_
        rw [← he, List.drop_eq_getElem_cons l1, e1]
        rw [show n - 2 + 1 = n - 1 by omega, List.drop_eq_getElem_cons l2, e2, show n - 1 + 1 = n by omega]
        rfl
      · rw [if_neg hcr] at he
        rw [he]
        exact .inl rfl

theorem before {body bd : Bytes} {x y : Piece} {p : Nat} (h1 : x.behind ≤ p) (h2 : body.drop p = [] ∨ bd <+: body.drop p)
    (h3 : p + bd.length ≤ y.first) (hbd : bd ≠ []) (hy : y.Honest bd body) : x.Before bd body y := by
  have hlen : 0 < bd.length := List.length_pos_iff.2 hbd
  have hin := hy.inside
  refine ⟨by omega, ?_⟩
  rcases h2 with h2 | ⟨r, h2⟩
  · have := congrArg List.length h2
    simp only [List.length_drop, List.length_nil] at this
    omega
  · have e : body.drop x.behind = (body.drop x.behind).take (p - x.behind) ++ (bd ++ r) := by
      conv => lhs; rw [← List.take_append_drop (p - x.behind) (body.drop x.behind), List.drop_drop,
        show x.behind + (p - x.behind) = p by omega, ← h2]
    have hl : ((body.drop x.behind).take (p - x.behind)).length = p - x.behind := by
      rw [List.length_take, List.length_drop]
      omega
    rw [e, List.take_append, List.take_append, List.take_of_length_le (l := bd)]
    · exact ⟨_, _, by rw [List.append_assoc]⟩
    · rw [hl]
      omega

theorem loop_honest {body bd : Bytes} (hbd : bd ≠ []) (fuel : Nat) : ∀ (s : St) (p : Nat) (ok : Bool) (d : Dict), Lines s →
    loop body bd fuel s p = .ret ok d → ∃ l : List Piece, d = s.dict ++ l.map (·.entry) ∧ (∀ x ∈ l, least bd s p ≤ x.first) ∧
      l.Pairwise (Piece.Before bd body) ∧ ∀ x ∈ l, x.Honest bd body := by
  induction fuel with
  | zero => intro s p ok d _ h; cases h
  | succ fuel ih =>
    intro s p ok d hL h
    rw [loop] at h
    cases hc : body[p]? with
    | none =>
      rw [hc] at h
      cases h
      exact ⟨[], by simp, nofun, List.Pairwise.nil, nofun⟩
    | some c =>
      rw [hc] at h
      dsimp only at h
      have hp : p < body.length := (List.getElem?_eq_some_iff.1 hc).1
      cases hs : step body bd s p c with
      | ret ok' =>
        rw [hs] at h
        cases h
        exact ⟨[], by simp, nofun, List.Pairwise.nil, nofun⟩
      | negativeLength => rw [hs] at h; cases h
      | outOfBounds => rw [hs] at h; cases h
      | next s' p' =>
        rw [hs] at h
        obtain ⟨hL', hpp, hd⟩ := step_honest hbd hp hL hs
        obtain ⟨l, i1, i2, i3, i4⟩ := ih s' p' ok d hL' h
        rcases hd with hd | ⟨x, hd, x1, x2, x4, x5, x3⟩
        · exact ⟨l, by rw [i1, hd], fun x hx => Nat.le_trans hpp (i2 x hx), i3, i4⟩
        · refine ⟨x :: l, by rw [i1, hd]; simp, ?_, ?_, ?_⟩
          · intro y hy
            rcases List.mem_cons.1 hy with rfl | hy
            · exact x1
            · exact Nat.le_trans hpp (i2 y hy)
          · exact List.pairwise_cons.2 ⟨fun y hy => before x2 x5 (by have := i2 y hy; rwa [least, if_pos x4] at this) hbd (i4 y hy), i3⟩
          · intro y hy
            rcases List.mem_cons.1 hy with rfl | hy
            · exact x3
            · exact i4 y hy

end Verif.Multipart
