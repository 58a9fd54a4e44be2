import Verif.Lemmas.HttpInv
import Verif.Lemmas.Multipart
import Verif.Props.UrlCodec
import Verif.Props.Base64
import Verif.Spec.HttpMemory
import Verif.Spec.HttpWire
/-
How much the parser stores for every byte it reads.
-/
namespace Verif.Http

theorem space_nil : space [] = 0 := rfl

theorem space_append (a b : Dict) : space (a ++ b) = space a + space b := by simp [space]

theorem space_insert (d : Dict) (k v : Bytes) : space (d.insert k v) = space d + (k.length + v.length + 1) := by
  simp [space, Dict.insert]

/-! ### Parameters -/

theorem query_step_space {d0 k : Nat} {s s' : Query.St} {c : UInt8} (hn : s.name.length ≤ 1024)
    (hv : s.inValue = false → s.value = []) (h : space s.dict + s.value.length ≤ d0 + 1025 * k)
    (e : Query.step s c = some s') :
    s'.name.length ≤ 1024 ∧ (s'.inValue = false → s'.value = []) ∧
      space s'.dict + s'.value.length ≤ d0 + 1025 * (k + 1) := by
  have hp : space (Query.put s) ≤ space s.dict + (s.name.length + s.value.length + 1) := by
    unfold Query.put
    rw [space_insert]
    have h1 := Props.UrlCodec.url_decode_length_le s.name
    have h2 := Props.UrlCodec.url_decode_length_le s.value
    omega
  unfold Query.step Query.NAME_MAX at e
  cases hin : s.inValue
  · have hv' := hv hin
    rw [if_pos hin] at e
    have hv0 : s.value.length = 0 := by rw [hv']; rfl
    repeat' split at e
    all_goals first
      | (cases e; done)
      | (obtain rfl := Option.some.inj e
         refine ⟨?_, ?_, ?_⟩
         · simp only [List.length_append, List.length_cons, List.length_nil, Bool.or_eq_true, decide_eq_true_eq, not_or] at *
           omega
         · intro _; exact hv'
         · try dsimp only
           omega)
  · rw [if_neg (by simp [hin])] at e
    repeat' split at e
    all_goals first
      | (cases e; done)
      | (obtain rfl := Option.some.inj e
         refine ⟨?_, ?_, ?_⟩
         · try simp only [List.length_nil]
           omega
         · intro hc; first | rfl | (exact absurd (hin.symm.trans hc) (by simp))
         · try simp only [List.length_append, List.length_cons, List.length_nil]
           omega)

theorem query_loop_space {d0 : Nat} (t : Bytes) : ∀ {k : Nat} {s : Query.St}, s.name.length ≤ 1024 →
    (s.inValue = false → s.value = []) → space s.dict + s.value.length ≤ d0 + 1025 * k →
    match Query.loop s t with
    | .inl d => space d ≤ d0 + 1025 * (k + t.length)
    | .inr s' => s'.name.length ≤ 1024 ∧ space s'.dict + s'.value.length ≤ d0 + 1025 * (k + t.length) := by
  induction t with
  | nil => intro k s hn _ h; exact ⟨hn, h⟩
  | cons c t ih =>
    intro k s hn hv h
    unfold Query.loop
    cases e : Query.step s c with
    | none => simp only [List.length_cons]; omega
    | some s' =>
      obtain ⟨h1, h2, h3⟩ := query_step_space hn hv h e
      have := ih h1 h2 h3
      rw [show k + (c :: t).length = k + 1 + t.length by simp only [List.length_cons]; omega]
      exact this

/-- Every byte of a query string makes the table of parameters at most 1025 bytes larger. -/
theorem query_space (d : Dict) (t : Bytes) : space (Query.parseUrlEncoded d t).2 ≤ space d + 1025 * (t.length + 1) := by
  have h := query_loop_space (d0 := space d) t (k := 0) (s := { dict := d }) (Nat.zero_le _) (fun _ => rfl)
    (Nat.le_refl _)
  unfold Query.parseUrlEncoded
  generalize Query.loop { dict := d } t = r at *
  cases r with
  | inl d' => simp only at *; omega
  | inr s =>
    simp only at *
    split
    · omega
    · unfold Query.put
      rw [space_insert]
      have h1 := Props.UrlCodec.url_decode_length_le s.name
      have h2 := Props.UrlCodec.url_decode_length_le s.value
      omega

/-! ### Cookies -/

theorem cookie_put_space (b : Bool) (s : Cookie.St) :
    space (Cookie.put b s) ≤ space s.dict + (s.name.length + s.value.length + 1) := by
  unfold Cookie.put
  split
  · omega
  · rw [space_insert]

theorem cookie_step_space {b : Bool} {n : Nat} {s s' : Cookie.St} {c : UInt8}
    (hv : s.st ≠ .value → s.value = []) (h : space s.dict + s.name.length + s.value.length ≤ n)
    (e : Cookie.step b s c = some s') :
    (s'.st ≠ .value → s'.value = []) ∧ space s'.dict + s'.name.length + s'.value.length ≤ n + 1 := by
  have hp := cookie_put_space b s
  unfold Cookie.step at e
  cases hst : s.st <;> simp only [hst] at e
  case value =>
    repeat' split at e
    all_goals first
      | (cases e; done)
      | (obtain rfl := Option.some.inj e
         refine ⟨fun hc => ?_, ?_⟩
         · first | rfl | (exact absurd hst hc) | (exact absurd rfl hc)
         · try simp only [List.length_append, List.length_cons, List.length_nil]
           omega)
  all_goals
    have hv' := hv (by rw [hst]; exact fun h => nomatch h)
    have hv0 : s.value.length = 0 := by rw [hv']; rfl
    repeat' split at e
    all_goals first
      | (cases e; done)
      | (obtain rfl := Option.some.inj e
         refine ⟨fun _ => hv', ?_⟩
         try simp only [List.length_append, List.length_cons, List.length_nil]
         omega)

theorem cookie_loop_space {b : Bool} (t : Bytes) : ∀ {n : Nat} {s : Cookie.St},
    (s.st ≠ .value → s.value = []) → space s.dict + s.name.length + s.value.length ≤ n →
    match Cookie.loop b s t with
    | .inl d => space d ≤ n + t.length
    | .inr s' => space s'.dict + s'.name.length + s'.value.length ≤ n + t.length := by
  induction t with
  | nil => intro n s _ h; exact h
  | cons c t ih =>
    intro n s hv h
    unfold Cookie.loop
    cases e : Cookie.step b s c with
    | none => simp only [List.length_cons]; omega
    | some s' =>
      obtain ⟨h2, h3⟩ := cookie_step_space hv h e
      have := ih h2 h3
      rw [show n + (c :: t).length = n + 1 + t.length by simp only [List.length_cons]; omega]
      exact this

/-- The cookies of a header take no more than its value and one byte. -/
theorem cookie_space (d : Dict) (t : Bytes) (b : Bool) :
    space (Cookie.parseCookieHeader d t b).2 ≤ space d + (t.length + 1) := by
  have h := cookie_loop_space (b := b) t (n := space d) (s := { dict := d }) (fun _ => rfl) (Nat.le_refl _)
  unfold Cookie.parseCookieHeader
  generalize Cookie.loop b { dict := d } t = r at *
  cases r with
  | inl d' => simp only at *; omega
  | inr s =>
    have := cookie_put_space b s
    simp only at *
    omega

theorem addCookies_space (b : Bool) (vs : List Bytes) : ∀ d, space (addCookies b d vs) ≤
    space d + (vs.map fun v => v.length + 1).sum := by
  induction vs with
  | nil => intro d; exact Nat.le_refl _
  | cons v vs ih =>
    intro d
    have h1 := ih (Cookie.parseCookieHeader d v b).2
    have h2 := cookie_space d v b
    simp only [addCookies, List.foldl_cons, List.map_cons, List.sum_cons] at *
    omega

theorem values_space (d : Dict) (k : Bytes) : ((d.values k).map fun v => v.length + 1).sum ≤ space d := by
  induction d with
  | nil => exact Nat.le_refl _
  | cons e d ih =>
    simp only [Dict.values, space, List.filter_cons, List.map_cons, List.sum_cons] at *
    split
    · simp only [List.map_cons, List.sum_cons]; omega
    · omega

/-- The cookies of a message take no more than its headers. -/
theorem cookies_space {ord : Dict.Order} (ho : OrderOk ord) (b : Bool) (d hs : Dict) (k : Bytes) :
    space (addCookies b d (ord (hs.values k))) ≤ space d + space hs := by
  have h1 := addCookies_space b (ord (hs.values k)) d
  have h2 := values_space hs k
  have h3 := ((ho (hs.values k)).map fun v => v.length + 1).sum_nat
  omega

end Verif.Http
