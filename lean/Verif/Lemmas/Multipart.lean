import Verif.Model.Multipart
import Verif.Spec.Multipart
import Mathlib.Tactic.Common
/-
Lemmas about the multipart parser: searching, single steps, reading of one part.
-/
namespace Verif.Multipart
open Verif Verif.Spec.Multipart

/-! ### `findSub` and `search` -/

theorem findSub_some {pat t : Bytes} {k : Nat} (h : findSub pat t = some k) :
    k ≤ t.length ∧ pat <+: t.drop k ∧ ∀ i < k, ¬ pat <+: t.drop i := by
  induction t generalizing k with
  | nil =>
    unfold findSub at h
    split at h
    · cases h
      rename_i hp
      rw [List.isEmpty_iff] at hp
      subst hp
      exact ⟨Nat.le_refl _, List.nil_prefix, fun i hi => absurd hi (Nat.not_lt_zero _)⟩
    · cases h
  | cons c r ih =>
    unfold findSub at h
    split at h
    · rename_i hp
      cases h
      exact ⟨Nat.zero_le _, List.isPrefixOf_iff_prefix.1 hp, fun i hi => absurd hi (Nat.not_lt_zero _)⟩
    · rename_i hp
      cases hr : findSub pat r with
      | none => rw [hr] at h; cases h
      | some m =>
        rw [hr] at h
        cases h
        obtain ⟨h1, h2, h3⟩ := ih hr
        refine ⟨by simp; omega, h2, ?_⟩
        intro i hi
        cases i with
        | zero => exact fun hh => hp (List.isPrefixOf_iff_prefix.2 hh)
        | succ i => exact h3 i (Nat.lt_of_succ_lt_succ hi)

theorem findSub_of {pat t : Bytes} (k : Nat) (hk : k ≤ t.length) (h : pat <+: t.drop k)
    (hn : ∀ i < k, ¬ pat <+: t.drop i) : findSub pat t = some k := by
  induction t generalizing k with
  | nil =>
    simp only [List.length_nil, Nat.le_zero] at hk
    subst hk
    unfold findSub
    rw [List.drop_zero, List.prefix_nil] at h
    rw [if_pos (by rw [h]; rfl)]
  | cons c r ih =>
    unfold findSub
    cases k with
    | zero =>
      rw [List.drop_zero] at h
      rw [if_pos (List.isPrefixOf_iff_prefix.2 h)]
    | succ k =>
      have h0 := hn 0 (Nat.succ_pos _)
      rw [List.drop_zero] at h0
      rw [if_neg (fun hh => h0 (List.isPrefixOf_iff_prefix.1 hh)),
        ih k (by simpa using hk) h (fun i hi => hn (i + 1) (by omega))]
      rfl

/-- A pattern without the character `x` that is a prefix of `u ++ x :: v` is a prefix of `u`. -/
theorem prefix_of_not_mem {pat u v : Bytes} {x : UInt8} (hx : x ∉ pat) (h : pat <+: u ++ x :: v) : pat <+: u := by
  induction u generalizing pat with
  | nil =>
    cases pat with
    | nil => exact List.nil_prefix
    | cons a p =>
      rw [List.nil_append, List.cons_prefix_cons] at h
      exact absurd h.1 (fun e => hx (by rw [e]; exact List.mem_cons_self))
  | cons b u ih =>
    cases pat with
    | nil => exact List.nil_prefix
    | cons a p =>
      rw [List.cons_append, List.cons_prefix_cons] at h
      rw [List.cons_prefix_cons]
      exact ⟨h.1, ih (fun hh => hx (List.mem_cons_of_mem _ hh)) h.2⟩

/-- The delimiter after data in which it does not occur is found where it is. -/
theorem findSub_data {pat u rest : Bytes} (hu : ¬ pat <:+: u) (hcr : 0x0d ∉ pat) (hlf : 0x0a ∉ pat)
    (hne : pat ≠ []) : findSub pat (u ++ crlf ++ pat ++ rest) = some (u.length + 2) := by
  apply findSub_of
  · simp [crlf]
  · have : (u ++ crlf ++ pat ++ rest).drop (u.length + 2) = pat ++ rest := by
      rw [List.append_assoc]
      exact List.drop_left' (by simp [crlf])
    rw [this]
    exact List.prefix_append _ _
  · intro i hi hp
    rcases Nat.lt_or_ge u.length i with h | h
    · have : i = u.length + 1 := by omega
      subst this
      rw [show u ++ crlf ++ pat ++ rest = (u ++ [0x0d]) ++ (0x0a :: (pat ++ rest)) by simp [crlf],
        List.drop_left' (by simp)] at hp
      have := prefix_of_not_mem (u := []) hlf hp
      exact hne (List.prefix_nil.1 this)
    · rw [show u ++ crlf ++ pat ++ rest = u ++ (0x0d :: 0x0a :: (pat ++ rest)) by simp [crlf],
        List.drop_append_of_le_length h] at hp
      have := prefix_of_not_mem hcr hp
      exact hu (this.isInfix.trans (List.drop_suffix i u).isInfix)

theorem search_ge (body bd : Bytes) (i : Nat) (h : i ≤ body.length) : i ≤ search body bd i := by
  unfold search
  split
  · omega
  · exact h

/-! ### Runs of the loop -/

/-- The loop gets from one state and position to another. -/
def Go (body bd : Bytes) (s : St) (p : Nat) (s' : St) (p' : Nat) : Prop :=
  ∃ k, ∀ fuel, loop body bd (fuel + k) s p = loop body bd fuel s' p'

variable {body bd : Bytes}

theorem Go.refl (s : St) (p : Nat) : Go body bd s p s p := ⟨0, fun _ => rfl⟩

theorem Go.trans {s p s' p' s'' p''} (h : Go body bd s p s' p') (h' : Go body bd s' p' s'' p'') :
    Go body bd s p s'' p'' := by
  obtain ⟨k, hk⟩ := h
  obtain ⟨k', hk'⟩ := h'
  exact ⟨k' + k, fun fuel => by rw [← Nat.add_assoc, hk, hk']⟩

theorem getElem?_of_drop {p : Nat} {c : UInt8} {t : Bytes} (h : body.drop p = c :: t) : body[p]? = some c := by
  have := congrArg (fun l => l[0]?) h
  simpa using this

theorem drop_succ_of_drop {p : Nat} {c : UInt8} {t : Bytes} (h : body.drop p = c :: t) : body.drop (p + 1) = t := by
  rw [← List.drop_drop, h]; rfl

theorem drop_add_of_drop {p : Nat} {u t : Bytes} (h : body.drop p = u ++ t) : body.drop (p + u.length) = t := by
  rw [← List.drop_drop, h]; simp

theorem Go.one {s p s' p' c t} (h : body.drop p = c :: t) (hs : step body bd s p c = .next s' p') :
    Go body bd s p s' p' := by
  refine ⟨1, fun fuel => ?_⟩
  rw [loop, getElem?_of_drop h]
  dsimp only
  rw [hs]

theorem go_name (w : Bytes) (s : St) (p : Nat) (rest : Bytes) (hs : s.st = .headerName)
    (hw : ∀ c ∈ w, c ≠ 0x0d ∧ c ≠ 0x0a ∧ c ≠ c! ":") (h : body.drop p = w ++ rest) :
    Go body bd s p { s with headerName := s.headerName ++ w } (p + w.length) := by
  induction w generalizing s p with
  | nil => simpa using Go.refl s p
  | cons c w ih =>
    obtain ⟨h1, h2, h3⟩ := hw c List.mem_cons_self
    have one : Go body bd s p { s with headerName := s.headerName ++ [c] } (p + 1) := by
      apply Go.one h
      unfold step
      rw [hs]
      dsimp only
      rw [if_neg (by simp [h1, h2]), if_neg h3]
    have := ih { s with headerName := s.headerName ++ [c] } (p + 1) (by exact hs)
      (fun c hc => hw c (List.mem_cons_of_mem _ hc)) (drop_succ_of_drop h)
    have e : p + (c :: w).length = p + 1 + w.length := by simp; omega
    rw [e]
    simpa using one.trans this

theorem go_value (w : Bytes) (s : St) (p : Nat) (rest : Bytes) (hs : s.st = .headerValue)
    (hw : ∀ c ∈ w, c ≠ 0x0d ∧ c ≠ 0x0a) (h : body.drop p = w ++ rest) :
    Go body bd s p { s with headerValue := s.headerValue ++ w } (p + w.length) := by
  induction w generalizing s p with
  | nil => simpa using Go.refl s p
  | cons c w ih =>
    obtain ⟨h1, h2⟩ := hw c List.mem_cons_self
    have one : Go body bd s p { s with headerValue := s.headerValue ++ [c] } (p + 1) := by
      apply Go.one h
      unfold step
      rw [hs]
      dsimp only
      rw [if_neg (by simp [h1, h2])]
    have := ih { s with headerValue := s.headerValue ++ [c] } (p + 1) (by exact hs)
      (fun c hc => hw c (List.mem_cons_of_mem _ hc)) (drop_succ_of_drop h)
    have e : p + (c :: w).length = p + 1 + w.length := by simp; omega
    rw [e]
    simpa using one.trans this

/-- State at the start of a header line, with the facts collected so far. -/
def atLine (d : Dict) (found : Bool) (name type : Bytes) (m : Bool) : St :=
  { st := .headerName, fieldName := name, contentType := type, mime64 := m, found := found, dict := d }

/-- Facts after a header line. -/
def lineName (name : Bytes) (h : Bytes × Bytes) : Bytes :=
  if iequals h.1 (b! "Content-Type") then name
  else if iequals h.1 (b! "Content-Disposition") then name ++ dispositionName h.2 else name
def lineType (type : Bytes) (h : Bytes × Bytes) : Bytes := if iequals h.1 (b! "Content-Type") then h.2 else type
def lineMime (m : Bool) (h : Bytes × Bytes) : Bool :=
  if iequals h.1 (b! "Content-Type") then !iequals (h.2.take 5) (b! "text/") else m

theorem go_line (h : Bytes × Bytes) (ho : HeaderOk h) (d : Dict) (f : Bool) (n t : Bytes) (m : Bool) (p : Nat)
    (rest : Bytes) (hd : body.drop p = headerLine h ++ rest) :
    Go body bd (atLine d f n t m) p (atLine d f (lineName n h) (lineType t h) (lineMime m h))
      (p + (headerLine h).length) := by
  obtain ⟨k, v⟩ := h
  obtain ⟨h1, h2, h3, h4, h5⟩ := ho
  dsimp only at *
  cases v with
  | nil => exact absurd rfl h4
  | cons a v =>
    have ha : a ≠ c! " " := fun e => h5 (by rw [e]; rfl)
    obtain ⟨ha1, ha2⟩ := h3 a List.mem_cons_self
    have hd0 : body.drop p = k ++ (c! ":" :: c! " " :: a :: (v ++ 0x0d :: 0x0a :: rest)) := by
      rw [hd]; simp [headerLine, crlf]
    have g1 := go_name (bd := bd) k (atLine d f n t m) p _ rfl h2 hd0
    have hd1 := drop_add_of_drop hd0
    generalize hp1 : p + k.length = p1 at g1 hd1
    have g2 : Go body bd { atLine d f n t m with headerName := (atLine d f n t m).headerName ++ k } p1
        { atLine d f n t m with headerName := k, st := .headerSpace } (p1 + 1) := Go.one hd1 rfl
    have hd2 := drop_succ_of_drop hd1
    have g3 : Go body bd { atLine d f n t m with headerName := k, st := .headerSpace } (p1 + 1)
        { atLine d f n t m with headerName := k, st := .headerSpace } (p1 + 1 + 1) := Go.one hd2 rfl
    have hd3 := drop_succ_of_drop hd2
    have g4 : Go body bd { atLine d f n t m with headerName := k, st := .headerSpace } (p1 + 1 + 1)
        { atLine d f n t m with headerName := k, headerValue := [a], st := .headerValue } (p1 + 1 + 1 + 1) := by
      apply Go.one hd3
      unfold step
      dsimp only
      rw [if_neg ha1, if_neg ha2, if_pos ha]
      rfl
    have hd4 := drop_succ_of_drop hd3
    have g5 := go_value (bd := bd) v
      { atLine d f n t m with headerName := k, headerValue := [a], st := .headerValue } (p1 + 1 + 1 + 1) _ rfl
      (fun c hc => h3 c (List.mem_cons_of_mem _ hc)) hd4
    have hd5 := drop_add_of_drop hd4
    generalize hp2 : p1 + 1 + 1 + 1 + v.length = p2 at g5 hd5
    have g6 : Go body bd { atLine d f n t m with headerName := k, headerValue := [a] ++ v, st := .headerValue } p2
        { atLine d f (lineName n (k, a :: v)) (lineType t (k, a :: v)) (lineMime m (k, a :: v)) with st := .headerLf }
        (p2 + 1) := by
      apply Go.one hd5
      unfold step
      dsimp only
      rw [if_pos (by simp), if_pos rfl]
      unfold endHeader lineName lineType lineMime atLine
      dsimp only [List.singleton_append]
      cases iequals k (b! "Content-Type") <;> cases iequals k (b! "Content-Disposition") <;> rfl
    have hd6 := drop_succ_of_drop hd5
    have g7 : Go body bd
        { atLine d f (lineName n (k, a :: v)) (lineType t (k, a :: v)) (lineMime m (k, a :: v)) with st := .headerLf }
        (p2 + 1) (atLine d f (lineName n (k, a :: v)) (lineType t (k, a :: v)) (lineMime m (k, a :: v)))
        (p2 + 1 + 1) := Go.one hd6 rfl
    have e : p + (headerLine (k, a :: v)).length = p2 + 1 + 1 := by
      simp [headerLine, crlf]; omega
    rw [e]
    exact ((((((g1.trans g2).trans g3).trans g4).trans g5).trans g6).trans g7)

theorem go_lines (hs : List (Bytes × Bytes)) (ho : ∀ h ∈ hs, HeaderOk h) (d : Dict) (f : Bool) (n t : Bytes) (m : Bool)
    (p : Nat) (rest : Bytes) (hd : body.drop p = hs.flatMap headerLine ++ rest) :
    Go body bd (atLine d f n t m) p
      (atLine d f (hs.foldl lineName n) (hs.foldl lineType t) (hs.foldl lineMime m))
      (p + (hs.flatMap headerLine).length) := by
  induction hs generalizing n t m p with
  | nil => simpa using Go.refl _ _
  | cons h hs ih =>
    have hd' : body.drop p = headerLine h ++ (hs.flatMap headerLine ++ rest) := by rw [hd]; simp
    have g1 := go_line (bd := bd) h (ho h List.mem_cons_self) d f n t m p _ hd'
    have g2 := ih (fun x hx => ho x (List.mem_cons_of_mem _ hx)) (lineName n h) (lineType t h) (lineMime m h) _
      (drop_add_of_drop hd')
    have e : p + ((h :: hs).flatMap headerLine).length =
        p + (headerLine h).length + (hs.flatMap headerLine).length := by simp; omega
    rw [e]
    exact g1.trans g2

theorem search_data {p : Nat} {u rest : Bytes} (hu : ¬ bd <:+: u) (hcr : 0x0d ∉ bd) (hlf : 0x0a ∉ bd)
    (hne : bd ≠ []) (hd : body.drop p = u ++ crlf ++ bd ++ rest) : search body bd p = p + u.length + 2 := by
  unfold search
  rw [hd, findSub_data hu hcr hlf hne]
  dsimp only
  omega

/-- What the parser adds for a part. -/
def added (pt : Part) : Dict :=
  let n := pt.headers.foldl lineName []
  if n = [] then []
  else [(n, if pt.headers.foldl lineMime false then binary2base64 pt.data (pt.headers.foldl lineType []) else pt.data)]

/-- State at a delimiter. -/
def AtDelim (d : Dict) (f : Bool) (s : St) : Prop := s.st = .start ∧ s.dict = d ∧ s.found = f

/-- Reading of one part that is followed by another delimiter. -/
theorem go_part (pt : Part) (ho : ∀ h ∈ pt.headers, HeaderOk h) (hu : ¬ bd <:+: pt.data) (hcr : 0x0d ∉ bd)
    (hlf : 0x0a ∉ bd) (hne : bd ≠ []) (d : Dict) (f : Bool) (s : St) (hs : AtDelim d f s) (p : Nat) (rest : Bytes)
    (hd : body.drop p = pt.text bd ++ (bd ++ rest)) :
    ∃ s' f', AtDelim (d ++ added pt) f' s' ∧ Go body bd s p s' (p + (pt.text bd).length) := by
  obtain ⟨hst, hsd, hsf⟩ := hs
  have hbl : 1 ≤ bd.length := List.length_pos_iff.2 hne
  have hd0 : body.drop p = bd ++ (0x0d :: 0x0a :: (pt.headers.flatMap headerLine ++
      (0x0d :: 0x0a :: (pt.data ++ crlf ++ bd ++ rest)))) := by
    rw [hd]; simp [Part.text, crlf]
  obtain ⟨b0, bt, hb⟩ : ∃ b0 bt, bd = b0 :: bt := by
    cases hbb : bd with
    | nil => exact absurd hbb hne
    | cons x y => exact ⟨x, y, rfl⟩
  have g1 : Go body bd s p { dict := d, found := f, st := .headerCr } (p + bd.length) := by
    have : body.drop p = b0 :: (bt ++ (0x0d :: 0x0a :: (pt.headers.flatMap headerLine ++
      (0x0d :: 0x0a :: (pt.data ++ crlf ++ bd ++ rest))))) := by
      rw [hd0]; conv_lhs => arg 1; rw [hb]
      exact List.cons_append
    apply Go.one this
    unfold step
    rw [hst]
    dsimp only
    rw [show p + (bd.length - 1) + 1 = p + bd.length by omega]
    congr 1
    cases s
    simp only [St.mk.injEq] at *
    simp [hsd, hsf]
  have hd1 := drop_add_of_drop hd0
  have g2 : Go body bd { dict := d, found := f, st := .headerCr } (p + bd.length)
      { dict := d, found := f, st := .headerLf } (p + bd.length + 1) := Go.one hd1 rfl
  have hd2 := drop_succ_of_drop hd1
  have g3 : Go body bd { dict := d, found := f, st := .headerLf } (p + bd.length + 1)
      (atLine d f [] [] false) (p + bd.length + 1 + 1) := Go.one hd2 rfl
  have hd3 := drop_succ_of_drop hd2
  have g4 := go_lines (bd := bd) pt.headers ho d f [] [] false _ _ hd3
  have hd4 := drop_add_of_drop hd3
  unfold added
  dsimp only
  generalize hN : pt.headers.foldl lineName [] = N at g4 ⊢
  generalize hT : pt.headers.foldl lineType [] = T at g4 ⊢
  generalize hM : pt.headers.foldl lineMime false = M at g4 ⊢
  generalize hq : p + bd.length + 1 + 1 + (pt.headers.flatMap headerLine).length = q at g4 hd4
  have g5 : Go body bd (atLine d f N T M) q { atLine d f N T M with st := .headerLastLf } (q + 1) := Go.one hd4 rfl
  have hd5 := drop_succ_of_drop hd4
  have hd6 := drop_succ_of_drop hd5
  have hend : p + (pt.text bd).length = q + 2 + pt.data.length + 2 := by
    simp only [Part.text, crlf, List.length_append, List.length_cons, List.length_nil]; omega
  have g := ((((g1.trans g2).trans g3).trans g4).trans g5)
  by_cases hnm : N = []
  · have hu' : ¬ bd <:+: (0x0a :: pt.data) := by
      intro h
      rcases List.infix_cons_iff.1 h with h | h
      · rw [hb, List.cons_prefix_cons] at h
        exact hlf (by rw [hb, h.1]; exact List.mem_cons_self)
      · exact hu h
    have hse := search_data (u := 0x0a :: pt.data) (rest := rest) hu' hcr hlf hne (p := q + 1) (body := body)
      (by rw [hd5]; simp)
    refine ⟨{ atLine d f N T M with st := .start }, f, ⟨rfl, by simp [hnm, atLine], rfl⟩, g.trans ?_⟩
    apply Go.one hd5
    unfold step
    dsimp only [atLine]
    simp only [hnm, List.isEmpty_nil, if_true, hse, hend]
    congr 1
    simp; omega
  · have g6 : Go body bd { atLine d f N T M with st := .headerLastLf } (q + 1)
        { atLine d f N T M with st := .fieldData } (q + 1 + 1) := by
      apply Go.one hd5
      unfold step
      dsimp only [atLine]
      have : N.isEmpty = false := by
        cases hN0 : N with
        | nil => exact absurd hN0 hnm
        | cons _ _ => rfl
      simp only [if_true, this, Bool.false_eq_true, if_false]
    have hse := search_data (u := pt.data) (rest := rest) hu hcr hlf hne (p := q + 1 + 1) (body := body) hd6
    refine ⟨{ atLine (d ++ [(N, if M then binary2base64 pt.data T else pt.data)]) true N T M with st := .start }, true,
      ⟨rfl, by rw [if_neg hnm]; rfl, rfl⟩, (g.trans g6).trans ?_⟩
    obtain ⟨c, t, hct⟩ : ∃ c t, body.drop (q + 1 + 1) = c :: t := by
      cases hh : body.drop (q + 1 + 1) with
      | nil => rw [hh] at hd6; simp [crlf] at hd6
      | cons c t => exact ⟨c, t, rfl⟩
    apply Go.one hct
    have hdat : body.drop (q + 1 + 1 + pt.data.length) = 0x0d :: 0x0a :: (bd ++ rest) := by
      apply drop_add_of_drop; rw [hd6]; simp [crlf]
    have hx1 : body[q + 1 + 1 + pt.data.length + 2 - 2]? = some 0x0d := getElem?_of_drop hdat
    have hx2 : body[q + 1 + 1 + pt.data.length + 2 - 1]? = some 0x0a := getElem?_of_drop (drop_succ_of_drop hdat)
    unfold step
    dsimp only [atLine]
    simp only [hse, hx1, hx2, hd6, hend]
    have hcond : (some (0x0d : UInt8) == some 0x0d && some (0x0a : UInt8) == some 0x0a) = true := by decide
    simp only [hcond, if_true]
    rw [if_neg (by omega), if_neg (by omega)]
    rw [show q + 1 + 1 + pt.data.length + 2 - 2 - (q + 1 + 1) = pt.data.length by omega]
    have : (pt.data ++ crlf ++ bd ++ rest).take pt.data.length = pt.data := by
      rw [List.append_assoc, List.append_assoc]; exact List.take_left' rfl
    rw [this]
    congr 1

theorem go_parts (ps : List Part) (ho : ∀ p ∈ ps, (∀ h ∈ p.headers, HeaderOk h) ∧ ¬ bd <:+: p.data) (hcr : 0x0d ∉ bd)
    (hlf : 0x0a ∉ bd) (hne : bd ≠ []) (d : Dict) (f : Bool) (s : St) (hs : AtDelim d f s) (p : Nat) (rest : Bytes)
    (hd : body.drop p = ps.flatMap (Part.text bd) ++ (bd ++ rest)) :
    ∃ s' f', AtDelim (d ++ ps.flatMap added) f' s' ∧
      Go body bd s p s' (p + (ps.flatMap (Part.text bd)).length) := by
  induction ps generalizing d f s p with
  | nil => exact ⟨s, f, by simpa using hs, by simpa using Go.refl s p⟩
  | cons pt ps ih =>
    have hpt := ho pt List.mem_cons_self
    obtain ⟨rest', hr⟩ : ∃ rest', ps.flatMap (Part.text bd) ++ (bd ++ rest) = bd ++ rest' := by
      cases ps with
      | nil => exact ⟨rest, by simp⟩
      | cons q ps =>
        refine ⟨crlf ++ (q.headers.flatMap headerLine ++ (crlf ++ (q.data ++ (crlf ++
          (ps.flatMap (Part.text bd) ++ (bd ++ rest)))))), ?_⟩
        rw [List.flatMap_cons, Part.text]; simp only [List.append_assoc]
    have hd' : body.drop p = pt.text bd ++ (bd ++ rest') := by
      rw [hd, List.flatMap_cons, List.append_assoc, hr]
    obtain ⟨s1, f1, h1, g1⟩ := go_part pt hpt.1 hpt.2 hcr hlf hne d f s hs p rest' hd'
    obtain ⟨s2, f2, h2, g2⟩ := ih (fun x hx => ho x (List.mem_cons_of_mem _ hx)) (d ++ added pt) f1 s1 h1 _
      (by rw [drop_add_of_drop hd', hr])
    refine ⟨s2, f2, by simpa using h2, ?_⟩
    have e : p + ((pt :: ps).flatMap (Part.text bd)).length =
        p + (pt.text bd).length + (ps.flatMap (Part.text bd)).length := by simp; omega
    rw [e]
    exact g1.trans g2

/-- The closing delimiter ends the loop. -/
theorem loop_close (d : Dict) (f : Bool) (s : St) (hs : AtDelim d f s) (hne : bd ≠ []) (p : Nat) (rest : Bytes)
    (hd : body.drop p = bd ++ (c! "-" :: c! "-" :: rest)) (fuel : Nat) :
    loop body bd (fuel + 2) s p = .ret true d := by
  obtain ⟨hst, hsd, hsf⟩ := hs
  have hbl : 1 ≤ bd.length := List.length_pos_iff.2 hne
  obtain ⟨c, t, hct⟩ : ∃ c t, body.drop p = c :: t := by
    cases hh : body.drop p with
    | nil => rw [hh] at hd; simp at hd
    | cons c t => exact ⟨c, t, rfl⟩
  have hd1 := drop_add_of_drop hd
  have e : p + (bd.length - 1) + 1 = p + bd.length := by omega
  rw [loop, getElem?_of_drop hct]
  dsimp only
  unfold step
  rw [hst]
  dsimp only
  rw [loop, e, getElem?_of_drop hd1]
  dsimp only
  unfold step
  dsimp only
  rw [getElem?_of_drop (drop_succ_of_drop hd1), if_neg (by decide), if_neg (by decide), if_pos (by decide)]
  dsimp only
  rw [hsd]

/-! ### Fuel -/

theorem loop_fuel_mono (fuel k : Nat) (s : St) (p : Nat) (h : loop body bd fuel s p ≠ .diverged) :
    loop body bd (fuel + k) s p = loop body bd fuel s p := by
  induction fuel generalizing s p with
  | zero => exact absurd rfl h
  | succ fuel ih =>
    rw [show fuel + 1 + k = (fuel + k) + 1 by omega]
    unfold loop at h ⊢
    cases hb : body[p]? with
    | none => rfl
    | some c =>
      rw [hb] at h
      dsimp only at h ⊢
      cases hs : step body bd s p c with
      | next s' p' => rw [hs] at h; exact ih s' p' h
      | ret ok => rfl
      | negativeLength => rfl
      | outOfBounds => rfl

/-- Work left: two per byte, one more if a field is being read. -/
def measure (body : Bytes) (s : St) (p : Nat) : Nat := 2 * (body.length - p) + (if s.st = .start then 0 else 1)

theorem step_measure (s : St) (p : Nat) (c : UInt8) (s' : St) (p' : Nat) (hp : p < body.length)
    (h : step body bd s p c = .next s' p') : measure body s' p' < measure body s p := by
  have hse := search_ge body bd p (Nat.le_of_lt hp)
  unfold measure
  unfold step at h
  cases hst : s.st <;> simp only [hst] at h
  all_goals
    repeat' split at h
    all_goals first
      | (cases h; done)
      | (cases h
         simp only [reduceCtorEq, if_false, if_true, hst]
         omega)

theorem loop_total (fuel : Nat) (s : St) (p : Nat) (h : measure body s p < fuel) :
    loop body bd fuel s p ≠ .diverged := by
  induction fuel generalizing s p with
  | zero => omega
  | succ fuel ih =>
    unfold loop
    cases hc : body[p]? with
    | none => simp
    | some c =>
      have hp : p < body.length := by
        rw [List.getElem?_eq_some_iff] at hc; exact hc.1
      dsimp only
      cases hs : step body bd s p c with
      | next s' p' =>
        have := step_measure s p c s' p' hp hs
        exact ih s' p' (by omega)
      | ret ok => simp
      | negativeLength => simp
      | outOfBounds => simp

theorem loop_start_total (s : St) (hs : s.st = .start) (p : Nat) :
    loop body bd (2 * body.length + 2) s p ≠ .diverged := by
  apply loop_total
  unfold measure
  rw [if_pos hs]
  omega

/-! ### Safety -/

/-- What is known about the bytes before the position. -/
def Behind (body : Bytes) (s : St) (p : Nat) : Prop :=
  (s.st ≠ .start → 2 ≤ p) ∧
  (s.st = .headerName → s.headerName = [] → body[p - 1]? = some 0x0a) ∧
  (s.st = .headerLastLf → 3 ≤ p ∧ body[p - 1]? = some 0x0d ∧ body[p - 2]? = some 0x0a) ∧
  (s.st = .fieldData → 3 ≤ p ∧ body[p - 1]? = some 0x0a ∧
    (body[p - 2]? = some 0x0a ∨ body[p - 2]? = some 0x0d ∧ body[p - 3]? = some 0x0a))

theorem step_behind (hbd : 2 ≤ bd.length) (s : St) (p : Nat) (c : UInt8) (s' : St) (p' : Nat) (hc : body[p]? = some c)
    (hb : Behind body s p) (h : step body bd s p c = .next s' p') : Behind body s' p' := by
  obtain ⟨h0, h1, h2, h3⟩ := hb
  unfold step at h
  cases hst : s.st <;> simp only [hst] at h
  case start =>
    cases h
    refine ⟨fun _ => by omega, ?_, ?_, ?_⟩ <;> intro hh <;> simp at hh
  case headerName =>
    have hp := h0 (by rw [hst]; simp)
    split at h
    · split at h
      · rename_i he
        have hb1 := h1 hst (by simpa using he)
        cases h
        refine ⟨fun _ => by omega, ?_, ?_, ?_⟩
        · intro hh; dsimp only at hh; split at hh <;> cases hh
        · intro hh
          dsimp only at hh
          split at hh
          · rename_i hcr
            exact ⟨by omega, by simpa [hcr] using hc, by simpa [show p + 1 - 2 = p - 1 by omega] using hb1⟩
          · cases hh
        · intro hh
          dsimp only at hh
          split at hh
          · cases hh
          · rename_i hcl hcr
            have : c = 0x0a := by simpa [hcr] using hcl
            refine ⟨by omega, by simpa [this] using hc, .inl ?_⟩
            simpa [show p + 1 - 2 = p - 1 by omega] using hb1
      · rename_i hcl he
        cases h
        refine ⟨fun _ => by omega, ?_, ?_, ?_⟩
        · intro _ hh
          dsimp only at hh
          rw [hh] at he
          exact absurd rfl he
        · intro hh; dsimp only at hh; split at hh <;> cases hh
        · intro hh; dsimp only at hh; split at hh <;> cases hh
    · split at h
      · cases h
        refine ⟨fun _ => by omega, ?_, ?_, ?_⟩ <;> intro hh <;> simp at hh
      · cases h
        refine ⟨fun _ => by omega, ?_, ?_, ?_⟩
        · intro _ hh; simp at hh
        · intro hh; cases hh
        · intro hh; cases hh
  case headerLastLf =>
    obtain ⟨hp, hb1, hb2⟩ := h2 hst
    split at h
    · rename_i hlf
      split at h
      · cases h
        refine ⟨fun hh => absurd rfl hh, ?_, ?_, ?_⟩ <;> intro hh <;> simp at hh
      · cases h
        refine ⟨fun _ => by omega, by intro hh; simp at hh, by intro hh; simp at hh, fun _ => ?_⟩
        refine ⟨by omega, by simpa [hlf] using hc, .inr ⟨?_, ?_⟩⟩
        · simpa [show p + 1 - 2 = p - 1 by omega] using hb1
        · simpa [show p + 1 - 3 = p - 2 by omega] using hb2
    · cases h
  case fieldData =>
    repeat' split at h
    all_goals first
      | (cases h; done)
      | (cases h
         refine ⟨fun hh => absurd rfl hh, ?_, ?_, ?_⟩ <;> intro hh <;> simp at hh)
  all_goals
    have hp := h0 (by rw [hst]; simp)
    repeat' split at h
    all_goals first
      | (cases h; done)
      | (cases h
         refine ⟨fun _ => by omega, ?_, ?_, ?_⟩ <;> intro hh <;> first
           | (simp at hh; done)
           | (exfalso; rw [hst] at hh; cases hh)
           | (cases hh; done)
           | (intro _; simp only [Nat.add_sub_cancel]; rw [hc]; simp_all))

end Verif.Multipart
