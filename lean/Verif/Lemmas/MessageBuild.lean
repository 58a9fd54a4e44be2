import Verif.Spec.MessageBuild
import Verif.Lemmas.WireGrammar
import Verif.Lemmas.CookieAppend
import Verif.Props.HttpFraming
import Verif.Props.Message
import Verif.Props.Query
import Verif.Props.Cookie
/-
Lemmas for C85: the parameters and cookies of a message that has been sent and parsed.
-/
namespace Verif.Props.MessageBuild
open Verif.Http Verif.Http.Text Verif.Props.Dict Verif.Props.HttpBody Verif.Props.Message Verif.Spec.MessageBuild
open Verif.Spec.Cookie Verif.Props.HttpFraming

/-- The two sides: the tables of the sender visit their entries in any order, the parser of the receiver reads whole
    messages into the content buffer, and its tables find values of the same name in any order. -/
structure Link (cfg : Cfg) (t : TableOrder) : Prop where
  tables : t.Ok
  order : Http.OrderOk cfg.ord
  whole : cfg.headersOnly = false
  buffered : cfg.handler = false
  max : cfg.maxContent + 1 < 2 ^ 64

/-- `m` can be sent, and however the connection cuts it and whatever follows, the receiver gets a message with `P` and
    leaves what follows unread. -/
def Arrives (cfg : Cfg) (t : TableOrder) (ka : Bool) (m : Msg) (P : Msg → Prop) : Prop :=
  ∃ m' wire, m.transmit t cfg.isRequest ka false = some (m', wire) ∧
    ∀ (old : Msg) (tail : Bytes) (bufs : List Bytes), Cuts bufs (wire ++ tail) →
      ∃ o, outcome cfg (fresh cfg (old.clear cfg.isRequest)) bufs = some o ∧ o.result = .yes ∧ o.error = none ∧
        o.unread = tail ∧ P o.message

theorem Arrives.mono {cfg : Cfg} {t : TableOrder} {ka : Bool} {m : Msg} {P Q : Msg → Prop} (h : Arrives cfg t ka m P)
    (hpq : ∀ r, P r → Q r) : Arrives cfg t ka m Q := by
  obtain ⟨m', wire, h1, h2⟩ := h
  refine ⟨m', wire, h1, fun old tail bufs hc => ?_⟩
  obtain ⟨o, a, b, c, d, e⟩ := h2 old tail bufs hc
  exact ⟨o, a, b, c, d, hpq _ e⟩

theorem values_eq (d : Dict) (k : Bytes) : d.values k = (matching d k).map (·.2) := rfl

theorem values_perm {a b : Dict} (h : a.Perm b) (k : Bytes) : (a.values k).Perm (b.values k) :=
  (matching_perm h k).map _

/-- The dictionaries of a message that was sent. -/
structure Dictionaries (cfg : Cfg) (t : TableOrder) (ka : Bool) (m : Msg) (body : Bytes) (r : Msg) : Prop where
  requestCookies : cfg.isRequest = true → r.cookies = addCookies false []
    (cfg.ord (Dict.values (t.iter (m.sentHeaders t true ka false)) (b! "Cookie")))
  responseCookies : cfg.isRequest = false → r.cookies = addCookies true []
    (cfg.ord (Dict.values (t.iter (m.sentHeaders t false ka false)) (b! "Set-Cookie")))
  plain : NotForm m.headers → r.queries = lineQueries [] (m.head cfg.isRequest)
  form : cfg.isRequest = true → (∃ n, matching m.headers (b! "Content-Type") = [(n, b! "application/x-www-form-urlencoded")]) →
    r.queries = (Query.parseUrlEncoded (lineQueries [] (m.head true)) body).2

theorem matching_sent_ct (t : TableOrder) (isRequest ka uc : Bool) (m : Msg) :
    matching (m.sentHeaders t isRequest ka uc) (b! "Content-Type") = matching m.headers (b! "Content-Type") := by
  rw [matching_sent_plain _ _ _ _ _ _ (by unfold plainName; decide +kernel), matching_cookies _ _ _ (by cases isRequest <;> decide +kernel),
    List.append_nil]

theorem arrives_dictionaries (cfg : Cfg) (t : TableOrder) (l : Link cfg t) (ka : Bool) (m : Msg) (body : Bytes)
    (hw : Writable cfg.isRequest m body) (hmax : body.length ≤ cfg.maxContent) :
    Arrives cfg t ka m fun r => SameMessage cfg.isRequest ka m body r ∧ Dictionaries cfg t ka m body r := by
  refine ⟨_, _, transmit_eq t cfg.isRequest ka m body hw.content hw.contentLength, fun old tail bufs hcut => ?_⟩
  obtain ⟨m', wire, htr, hall⟩ := send_receive_partial cfg l.order l.whole l.buffered t l.tables ka m old body hw hmax tail
  have e := htr.symm.trans (transmit_eq t cfg.isRequest ka m body hw.content hw.contentLength)
  simp only [Option.some.injEq, Prod.mk.injEq] at e
  obtain ⟨rfl, rfl⟩ := e
  obtain ⟨o, ho, h1, h2, h3, h4⟩ := hall bufs hcut
  refine ⟨o, ho, h1, h2, h3, h4, ?_⟩
  set hs := t.iter (m.sentHeaders t cfg.isRequest ka false) with hhs
  have hok : ∀ e ∈ hs, HeaderOk e := fun e he => sentHeaders_ok t l.tables _ _ _ m hw.headersOk hw.cookiesOk
    (by rw [hw.contentLength]; have := hw.size; omega) e ((l.tables _).subset he)
  have w : Whole cfg (old.clear cfg.isRequest) (m.head cfg.isRequest) :=
    ⟨blank_clear _ _, l.order, (head_isRequest _ _).symm, l.whole, l.max⟩
  obtain ⟨name, hlen⟩ := matching_sent_length t cfg.isRequest ka m hw.sendsLength
  have hfind : Dict.find? cfg.ord hs (b! "Content-Length") = some (toDec body.length) := by
    rw [find?_single l.order (matching_iter l.tables hlen), hw.contentLength]
  have hnc : ¬ AnnouncesChunks cfg.ord hs := by
    rintro ⟨v, hv, hch⟩
    obtain ⟨name, hmem⟩ := find?_mem l.order hv
    have := (matching_perm (l.tables _) _).subset hmem
    rw [matching_sent_te] at this
    exact hw.notChunked _ this hch
  have hg : Message (reading cfg (old.clear cfg.isRequest)) (m.head cfg.isRequest) hs body []
      (wireHead (m.head cfg.isRequest) hs ++ body) tail := by
    refine ⟨_, body, rfl, messageHead_wire hw.headOk hok _, ?_⟩
    by_cases hbl : (m.head cfg.isRequest).Bodyless (old.clear cfg.isRequest).requestMethod
    · have : body = [] := hw.bodyAllowed (by rw [clear_requestMethod] at hbl; exact hbl)
      subst this
      exact .none hnc (.inl hbl)
    · refine .length hnc hbl hfind ⟨[], [], toDec body.length, [], by simp, by simp, toDec_ne_nil _, toDec_isDigit _, ?_, ?_⟩
      · rw [decVal_toDec]; have := hw.size; omega
      · exact .inl ⟨.inl rfl, (decVal_toDec _).symm⟩
  obtain ⟨o', ho', d1, d2, d3, d4⟩ := message_dictionaries cfg _ _ w hs body [] _ tail hg bufs hcut
  rw [ho] at ho'
  cases ho'
  have hck : (old.clear cfg.isRequest).cookies = [] := by cases cfg.isRequest <;> rfl
  have hqs : (old.clear cfg.isRequest).queries = [] := by cases cfg.isRequest <;> rfl
  rw [hck] at d1 d2
  rw [hqs] at d3 d4
  rw [head_isRequest] at d1 d2
  rw [List.append_nil] at d3 d4
  have hct : (matching hs (b! "Content-Type")).Perm (matching m.headers (b! "Content-Type")) := by
    refine (matching_perm (l.tables _) _).trans ?_
    rw [matching_sent_ct]
  refine ⟨fun h => ?_, fun h => ?_, fun h => ?_, fun h hf => ?_⟩
  · rw [d1 h, hhs, h]
  · rw [d2 h, hhs, h]
  · refine d3 (.inr ?_)
    unfold Dict.get
    cases hf : Dict.find? cfg.ord hs (b! "Content-Type") with
    | none => exact ⟨by decide +kernel, by decide +kernel⟩
    | some v =>
      obtain ⟨n, hn⟩ := find?_mem l.order hf
      have := hct.subset hn
      exact h v (by rw [values_eq]; exact List.mem_map.2 ⟨_, this, rfl⟩)
  · obtain ⟨n, hn⟩ := hf
    rw [hn, List.perm_singleton] at hct
    have hget : Dict.get cfg.ord hs (b! "Content-Type") = b! "application/x-www-form-urlencoded" := by
      unfold Dict.get
      rw [find?_single l.order hct]; rfl
    have := d4 ⟨h, l.buffered⟩ (by rw [hget]; exact List.prefix_refl _)
    rw [List.take_of_length_le hmax, h] at this
    exact this

theorem cookies_of_headers (b : Bool) (ord : Dict.Order) (ho : Http.OrderOk ord) (vs : List Bytes) (cs : Dict)
    (h : (vs.flatMap fun v => (Cookie.parseCookieHeader [] v b).2) = cs) : (addCookies b [] (ord vs)).Perm cs := by
  rw [addCookies_eq, List.nil_append, ← h]
  exact (ho vs).flatMap_right _

theorem sepOk : c! ";" ∈ b! ";," := by decide +kernel
theorem pathName : NameOk (b! "Path") := ⟨by decide, by decide +kernel, by decide +kernel⟩
theorem ageName : NameOk (b! "Max-Age") := ⟨by decide, by decide +kernel, by decide +kernel⟩
theorem pathAttr : isAttr true (b! "Path") = true := by decide +kernel
theorem ageAttr : isAttr true (b! "Max-Age") = true := by decide +kernel

theorem parse_requestCookie {c : Bytes × Bytes} (h : RequestCookie c) :
    (Cookie.parseCookieHeader [] (c.1 ++ b! "=" ++ c.2) false).2 = [c] := by
  have := Cookie.cookies_exact false [⟨0, c.1, .plain c.2, c! ";"⟩] (by
    intro i hi
    rw [List.mem_singleton] at hi
    subst hi
    exact ⟨h.name, h.value, sepOk⟩) []
  have e : render [⟨0, c.1, .plain c.2, c! ";"⟩] = c.1 ++ b! "=" ++ c.2 := by
    simp [render, Item.text, Written.text]
  rw [e] at this
  rw [this]
  simp [h.notAttribute, Written.meaning]

theorem setCookie_render (c : SetCookie) : Msg.setCookieHeader c.name c.value c.path c.maxAge =
    render ([⟨0, c.name, .quoted (c! "\"") c.value, c! ";"⟩, ⟨1, b! "Version", .plain (b! "1"), c! ";"⟩] ++
      (if c.path.isEmpty then [] else [⟨1, b! "Path", .plain c.path, c! ";"⟩]) ++
      (match c.maxAge with
        | none => []
        | some n => [⟨1, b! "Max-Age", .plain (toDec n), c! ";"⟩])) := by
  unfold Msg.setCookieHeader
  cases c.path with
  | nil => cases c.maxAge <;> simp [render, Item.text, Written.text]
  | cons a p => cases c.maxAge <;> simp [render, Item.text, Written.text]

theorem digit_plain : ∀ c : UInt8, isDigit c = true → c ∉ b! ";," ∧ ctl c = false ∧ c ∉ b! " '\"" := by decide +kernel

theorem parse_setCookie {c : SetCookie} (h : c.Ok) :
    (Cookie.parseCookieHeader [] (Msg.setCookieHeader c.name c.value c.path c.maxAge) true).2 = [(c.name, c.value)] := by
  rw [setCookie_render, Cookie.cookies_exact]
  · dsimp only
    rw [List.filter_append, List.filter_append]
    have h1 : ∀ (x : List Item), (∀ i ∈ x, isAttr true i.name = true) → x.filter (fun i => !isAttr true i.name) = [] := by
      intro x hx
      rw [List.filter_eq_nil_iff]
      intro i hi
      simp [hx i hi]
    rw [h1 (if c.path.isEmpty then _ else _) (by
      split
      · simp
      · intro i hi; rw [List.mem_singleton] at hi; subst hi; exact pathAttr)]
    rw [h1 (match c.maxAge with | none => _ | some n => _) (by
      split
      · simp
      · intro i hi; rw [List.mem_singleton] at hi; subst hi; exact ageAttr)]
    rw [List.filter_cons, List.filter_cons]
    dsimp only
    rw [h.notAttribute, show isAttr true (b! "Version") = true by decide +kernel]
    rfl
  · intro i hi
    simp only [List.mem_append, List.mem_cons, List.not_mem_nil, or_false] at hi
    rcases hi with ((rfl | rfl) | hi) | hi
    · refine ⟨h.name, ⟨?_, by decide, h.value.1⟩, sepOk⟩
      have := h.size
      omega
    · exact ⟨⟨by decide, by decide +kernel, by decide +kernel⟩, ⟨by decide +kernel, by decide +kernel, by
        intro c hc; cases hc; decide +kernel⟩, by decide +kernel⟩
    · split at hi
      · cases hi
      · rw [List.mem_singleton] at hi
        subst hi
        exact ⟨pathName, h.path, sepOk⟩
    · split at hi
      · cases hi
      · rename_i n hn
        rw [List.mem_singleton] at hi
        subst hi
        have hl := toDec_length (h.age n hn)
        refine ⟨ageName, ⟨by omega, fun c hc => ?_, fun c hc => ?_⟩, sepOk⟩
        · have := digit_plain c (toDec_isDigit _ c hc); exact ⟨this.1, this.2.1⟩
        · exact (digit_plain c (toDec_isDigit _ c (List.mem_of_mem_head? hc))).2.2

theorem valueChar_of_ctl {c : UInt8} (h : ctl c = false) : valueChar c := .inr (by rw [Cookie.control_eq]; exact h)

theorem token_setCookie : Token (b! "Set-Cookie") := ⟨by decide +kernel, by decide +kernel, by decide +kernel⟩

theorem setCookie_headerOk {c : SetCookie} (h : c.Ok) :
    HeaderOk (b! "Set-Cookie", Msg.setCookieHeader c.name c.value c.path c.maxAge) where
  name := token_setCookie
  value := by
    have hb : ∀ x ∈ b! "=\"" ++ b! "\"; Version=1" ++ b! "; Path=" ++ b! "; Max-Age=", valueChar x := by
      unfold valueChar; decide +kernel
    intro x hx
    dsimp only at hx
    unfold Msg.setCookieHeader at hx
    simp only [List.mem_append] at hx hb
    rcases hx with ((((hx | hx) | hx) | hx) | hx) | hx
    · exact valueChar_of_ctl (h.name.char x hx).2
    · exact hb x (by simp [hx])
    · exact h.value.2 x hx
    · exact hb x (by simp [hx])
    · split at hx
      · cases hx
      · rcases List.mem_append.1 hx with hx | hx
        · exact hb x (by simp [hx])
        · exact valueChar_of_ctl (h.path.2.1 x hx).2
    · split at hx
      · cases hx
      · rcases List.mem_append.1 hx with hx | hx
        · exact hb x (by simp [hx])
        · exact isDigit_valueChar x (toDec_isDigit _ x hx)
  size := by
    have hs := h.size
    have h1 : (if c.path.isEmpty then ([] : Bytes) else b! "; Path=" ++ c.path).length ≤ 7 + c.path.length := by
      split
      · simp
      · rw [List.length_append]; exact Nat.le_refl _
    have e1 : (b! "=\"").length = 2 := by decide +kernel
    have e2 : (b! "\"; Version=1").length = 12 := by decide +kernel
    have e3 : (b! "; Max-Age=").length = 10 := by decide +kernel
    unfold Msg.setCookieHeader
    simp only [List.length_append]
    cases hm : c.maxAge with
    | none => simp only [List.length_nil]; omega
    | some n =>
      have := toDec_length (h.age n hm)
      simp only [List.length_append]; omega

end Verif.Props.MessageBuild
