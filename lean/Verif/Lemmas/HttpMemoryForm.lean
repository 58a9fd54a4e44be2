import Verif.Lemmas.HttpMemory
/-
How much a multipart form stores for every byte of it.
-/
namespace Verif.Http
open Verif.Multipart

theorem search_ge (body bd : Bytes) (p : Nat) (h : p ≤ body.length) : p ≤ search body bd p := by
  unfold search; split <;> omega

theorem search_le (body bd : Bytes) (p : Nat) (h : p ≤ body.length) : search body bd p ≤ body.length := by
  unfold search
  split
  · rename_i k hk
    have := (Multipart.findSub_some hk).1
    rw [List.length_drop] at this
    omega
  · exact Nat.le_refl _

theorem binary_length (data ty : Bytes) : (binary2base64 data ty).length ≤ ty.length + 2 * data.length + 19 := by
  unfold binary2base64
  rw [← Props.Base64.base64_encode_is_rfc4648]
  have := (Props.Base64.base64_encode_shape data).1
  simp only [List.length_append, this, show (b! "data:").length = 5 from rfl,
    show (b! "; base64, ").length = 10 from rfl]
  omega

theorem dispositionName_length (v : Bytes) : (dispositionName v).length ≤ v.length := by
  unfold dispositionName
  split
  · refine Nat.le_trans (List.takeWhile_sublist _).length_le ?_
    rw [List.length_drop]; omega
  · exact Nat.zero_le _

/-- What is stored of the part that is being read. -/
def pend (s : Multipart.St) : Nat :=
  if s.st = .start then 0
  else s.headerName.length + s.headerValue.length + s.fieldName.length + s.contentType.length + 20

theorem pend_endHeader (s : Multipart.St) (t : PState) (hs : s.st ≠ .start) :
    pend { endHeader s with st := t } ≤ pend s := by
  have := dispositionName_length s.headerValue
  unfold pend endHeader
  rw [if_neg hs]
  dsimp only
  split
  · omega
  · split
    · simp only [List.length_nil]; omega
    · split
      · simp only [List.length_append, List.length_nil]; omega
      · simp only [List.length_nil]; omega

theorem endHeader_dict (s : Multipart.St) : (endHeader s).dict = s.dict := by
  unfold endHeader; dsimp only; split
  · rfl
  · split <;> rfl

theorem form_step_space {d0 : Nat} {body bd : Bytes} {s s' : Multipart.St} {ptr ptr' : Nat} {c : UInt8}
    (hb : 2 ≤ bd.length) (hp : ptr < body.length) (h1 : space s.dict + pend s ≤ d0 + 10 * ptr)
    (e : Multipart.step body bd s ptr c = .next s' ptr') :
    space s'.dict + pend s' ≤ d0 + 10 * ptr' ∧ (space s'.dict = space s.dict ∨ ptr' ≤ body.length) := by
  unfold Multipart.step at e
  cases hst : s.st <;> simp only [hst] at e
  case start =>
    simp only [Multipart.Step.next.injEq] at e
    obtain ⟨rfl, rfl⟩ := e
    refine ⟨?_, .inl rfl⟩
    simp only [pend, hst, if_true] at h1
    simp [pend]
    omega
  case fieldData =>
    have hl := search_le body bd ptr (by omega)
    have hg := search_ge body bd ptr (by omega)
    by_cases h2 : search body bd ptr < 2
    · rw [if_pos h2] at e; cases e
    rw [if_neg h2] at e
    generalize hk : (if (body[search body bd ptr - 2]? == some 0x0d && body[search body bd ptr - 1]? == some 0x0a) = true
      then search body bd ptr - 2 else search body bd ptr) = endp at e
    have hk' : endp ≤ search body bd ptr := by rw [← hk]; split <;> omega
    by_cases h3 : endp < ptr
    · rw [if_pos h3] at e; cases e
    rw [if_neg h3] at e
    simp only [Multipart.Step.next.injEq] at e
    obtain ⟨rfl, rfl⟩ := e
    refine ⟨?_, .inr hl⟩
    simp only [pend, hst] at h1
    simp only [pend, space_insert, if_true]
    have hd : ((body.drop ptr).take (endp - ptr)).length ≤ search body bd ptr - ptr := by
      rw [List.length_take]; omega
    generalize (body.drop ptr).take (endp - ptr) = data at *
    have := binary_length data s.contentType
    simp only [reduceCtorEq, if_false] at h1
    split <;> omega
  case headerValue =>
    have h0 : s.st ≠ .start := by rw [hst]; exact fun h => nomatch h
    split at e
    · simp only [Multipart.Step.next.injEq] at e
      obtain ⟨rfl, rfl⟩ := e
      have := pend_endHeader s (if c = 0x0d then .headerLf else .headerName) h0
      refine ⟨?_, .inl (by rw [endHeader_dict])⟩
      simp only [endHeader_dict] at *
      omega
    · simp only [Multipart.Step.next.injEq] at e
      obtain ⟨rfl, rfl⟩ := e
      refine ⟨?_, .inl rfl⟩
      simp only [pend, hst, reduceCtorEq, if_false, List.length_append, List.length_cons, List.length_nil] at *
      omega
  all_goals
    repeat' split at e
    all_goals first
      | (cases e; done)
      | (simp only [Multipart.Step.next.injEq] at e
         obtain ⟨rfl, rfl⟩ := e
         refine ⟨?_, .inl rfl⟩
         have := search_ge body bd ptr (by omega)
         simp only [pend, hst, reduceCtorEq, if_false, if_true, List.length_append, List.length_cons,
           List.length_nil] at *
         omega)

theorem form_loop_space {d0 : Nat} {body bd : Bytes} (hb : 2 ≤ bd.length) : ∀ (fuel : Nat) (s : Multipart.St) (ptr : Nat),
    space s.dict + pend s ≤ d0 + 10 * ptr → space s.dict ≤ d0 + 10 * body.length →
    ∀ ok d, Multipart.loop body bd fuel s ptr = .ret ok d → space d ≤ d0 + 10 * body.length := by
  intro fuel
  induction fuel with
  | zero => intro s ptr _ _ ok d e; cases e
  | succ fuel ih =>
    intro s ptr h1 h2 ok d e
    unfold Multipart.loop at e
    cases hc : body[ptr]? with
    | none =>
      rw [hc] at e
      simp only [Res.ret.injEq] at e
      rw [← e.2]; exact h2
    | some c =>
      rw [hc] at e
      have hp : ptr < body.length := (List.getElem?_eq_some_iff.1 hc).1
      dsimp only at e
      cases hs : Multipart.step body bd s ptr c with
      | next s' ptr' =>
        rw [hs] at e
        obtain ⟨h3, h4⟩ := form_step_space hb hp h1 hs
        refine ih s' ptr' h3 ?_ ok d e
        rcases h4 with h4 | h4 <;> omega
      | ret ok' => rw [hs] at e; simp only [Res.ret.injEq] at e; rw [← e.2]; exact h2
      | negativeLength => rw [hs] at e; cases e
      | outOfBounds => rw [hs] at e; cases e

/-- Every byte of a multipart form makes the table of parameters at most ten bytes larger. -/
theorem form_space (d : Dict) (ct body : Bytes) (ok : Bool) (d' : Dict) (h : parseMultipart d ct body = .ret ok d') :
    space d' ≤ space d + 10 * body.length := by
  unfold parseMultipart at h
  split at h
  · simp only [Res.ret.injEq] at h; rw [← h.2]; omega
  · split at h
    · simp only [Res.ret.injEq] at h; rw [← h.2]; omega
    · refine form_loop_space (d0 := space d) ?_ _ _ _ ?_ ?_ _ _ h
      · simp
      · simp [pend]
      · dsimp only; omega

end Verif.Http
