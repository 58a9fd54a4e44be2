import Verif.Lemmas.HttpMemoryRun
import Verif.Lemmas.WireGrammar
import Verif.Props.HttpFraming
/-
C105: the memory that one message takes.
-/
namespace Verif.Props.HttpMemory
open Verif.Http Verif.Http.Text Verif.Props.HttpBody

/-- **C105 (partial: without the parameters).** Whatever is received, in however many pieces, and whether or not it is a
    valid message: what message and parser hold, except for the table of query and form parameters, is at most eight bytes
    for every byte received, twice the configured maximum of content, and five bytes. In particular a Content-Length does
    not make the parser take memory beyond the maximum, and no header or cookie is stored more often than it was sent. -/
theorem memory_in_proportion_partial (cfg : Cfg) (hraw : cfg.saveRaw = false) (ho : OrderOk cfg.ord) (m : Msg)
    (hm : Unused m) (bufs : List Bytes) (rc : Tri) (s : S) (rest : Bytes) (unused : List Bytes)
    (hf : feed cfg (fresh cfg m) bufs = some (rc, s, rest, unused)) :
    heldByMessage s.msg + heldByParser s ≤ 8 * bufs.flatten.length + 2 * cfg.maxContent + 5 := by
  obtain ⟨h0, he⟩ := fresh_held cfg m hm
  have h := feed_held hraw ho bufs h0 he hf
  rw [Nat.zero_add] at h
  obtain ⟨h1, h2, h3, h4, h5, h6, h7, h8, h9, _⟩ := h
  unfold heldByMessage heldByParser
  omega

/-- **C105, content.** The content and the chunks that are kept are never more than the configured maximum, whatever
    length is announced. -/
theorem content_within_maximum (cfg : Cfg) (hraw : cfg.saveRaw = false) (ho : OrderOk cfg.ord) (m : Msg)
    (hm : Unused m) (bufs : List Bytes) (rc : Tri) (s : S) (rest : Bytes) (unused : List Bytes)
    (hf : feed cfg (fresh cfg m) bufs = some (rc, s, rest, unused)) :
    s.msg.content.length ≤ cfg.maxContent ∧ s.msg.chunkCache.length ≤ cfg.maxContent := by
  obtain ⟨h0, he⟩ := fresh_held cfg m hm
  have h := feed_held hraw ho bufs h0 he hf
  exact ⟨h.content, h.cache⟩

/-- **C105 (partial), the parameters.** The table of query and form parameters takes at most 1025 bytes for every byte
    received and every byte of content that may be kept. -/
theorem parameters_bounded_partial (cfg : Cfg) (hraw : cfg.saveRaw = false) (ho : OrderOk cfg.ord) (m : Msg)
    (hm : Unused m) (bufs : List Bytes) (rc : Tri) (s : S) (rest : Bytes) (unused : List Bytes)
    (hf : feed cfg (fresh cfg m) bufs = some (rc, s, rest, unused)) :
    space s.msg.queries ≤ 1025 * (bufs.flatten.length + cfg.maxContent + 2) := by
  obtain ⟨h0, he⟩ := fresh_held cfg m hm
  have h := (feed_held hraw ho bufs h0 he hf).queries
  rw [Nat.zero_add] at h
  unfold formSpace at h
  rw [← Nat.mul_add, show bufs.flatten.length + 1 + (cfg.maxContent + 1) = bufs.flatten.length + cfg.maxContent + 2 by
    generalize bufs.flatten.length = a; generalize cfg.maxContent = b; omega] at h
  exact h

/-! ### The parameters multiply what was received -/

theorem decode_letters (k : Nat) : UrlCodec.urlDecode (List.replicate k (c! "a")) = List.replicate k (c! "a") := by
  induction k with
  | zero => rfl
  | succ k ih =>
    rw [List.replicate_succ]
    unfold UrlCodec.urlDecode
    rw [if_neg (by decide), if_neg (by decide), ih]

theorem loop_name (k : Nat) : ∀ (i : Nat) (d : Dict) (r : Bytes), i + k ≤ 1024 →
    Query.loop { name := List.replicate i (c! "a"), dict := d } (List.replicate k (c! "a") ++ r) =
      Query.loop { name := List.replicate (i + k) (c! "a"), dict := d } r := by
  induction k with
  | zero => intro i d r _; rfl
  | succ k ih =>
    intro i d r h
    have e : Query.step { name := List.replicate i (c! "a"), dict := d } (c! "a") =
        some { name := List.replicate (i + 1) (c! "a"), dict := d } := by
      unfold Query.step
      rw [if_pos rfl, if_neg (by decide), if_neg (by decide), if_neg (by decide), if_neg]
      · rw [List.replicate_succ']
      · have : isControl (c! "a") = false := by decide
        simp only [this, Bool.false_or, decide_eq_true_eq, Query.NAME_MAX, List.length_replicate]
        omega
    rw [List.replicate_succ, List.cons_append, Query.loop, e]
    dsimp only
    rw [ih (i + 1) d r (by omega)]
    rw [show i + 1 + k = i + (k + 1) by omega]

theorem loop_commas (name : Bytes) (hn : name ≠ []) (j : Nat) : ∀ d : Dict,
    Query.loop { inValue := true, name := name, dict := d } (List.replicate j (c! ",")) =
      .inr { inValue := true, name := name, dict := d ++ List.replicate j (UrlCodec.urlDecode name, []) } := by
  induction j with
  | zero => intro d; rw [List.replicate_zero, List.replicate_zero, List.append_nil]; rfl
  | succ j ih =>
    intro d
    have e : Query.step { inValue := true, name := name, dict := d } (c! ",") =
        some { inValue := true, name := name, dict := d ++ [(UrlCodec.urlDecode name, [])] } := by
      unfold Query.step
      rw [if_neg (fun h => nomatch h), if_neg (by decide), if_pos rfl, if_neg (by simpa using hn)]
      rfl
    rw [List.replicate_succ, Query.loop, e]
    dsimp only
    rw [ih, List.append_assoc, List.replicate_succ]
    rfl

theorem commas_parse (k j : Nat) (hk : k ≤ 1024) (h0 : k ≠ 0) :
    (Query.parseUrlEncoded [] (List.replicate k (c! "a") ++ [c! "="] ++ List.replicate j (c! ","))).2 =
      List.replicate (j + 1) (List.replicate k (c! "a"), []) := by
  have h1 := loop_name k 0 [] ([c! "="] ++ List.replicate j (c! ",")) (by omega)
  rw [Nat.zero_add, ← List.append_assoc] at h1
  have hne : List.replicate k (c! "a") ≠ [] := by simp [h0]
  have e : Query.step { name := List.replicate k (c! "a"), dict := [] } (c! "=") =
      some { inValue := true, name := List.replicate k (c! "a"), dict := [] } := rfl
  unfold Query.parseUrlEncoded
  rw [show ({ dict := [] } : Query.St) = { name := List.replicate 0 (c! "a"), dict := [] } from rfl, h1]
  rw [List.singleton_append, Query.loop, e]
  dsimp only
  rw [loop_commas _ hne, decode_letters]
  dsimp only
  rw [if_neg (by simpa using h0)]
  unfold Query.put
  rw [decode_letters, List.nil_append, List.replicate_succ']
  rfl

theorem space_replicate (n : Nat) (e : Bytes × Bytes) :
    space (List.replicate n e) = n * (e.1.length + e.2.length + 1) := by
  simp [space, List.map_replicate, List.sum_replicate_nat]

/-- A request for `/` with the query string `aaa…=,,,…`: `k` letters and `j` commas. -/
def commas (k j : Nat) : Head :=
  .request (b! "GET") (b! "/") (List.replicate k (c! "a") ++ [c! "="] ++ List.replicate j (c! ",")) 1 1

theorem commas_length (k j : Nat) : (wireHead (commas k j) []).length = k + j + 20 := by
  have : (List.replicate k (c! "a") ++ [c! "="] ++ List.replicate j (c! ",")).isEmpty = false := by simp
  simp only [wireHead, commas, Head.line, requestLine, this, headerBlock, versionText, List.length_append,
    List.length_replicate, List.map_nil, List.flatten_nil, List.length_nil, CRLF, Bool.false_eq_true, if_false,
    List.length_singleton]
  rw [show (b! "GET").length = 3 from rfl, show (b! "HTTP/").length = 5 from rfl, show (toDec 1).length = 1 by decide +kernel]
  simp
  omega

theorem commas_ok (k j : Nat) (h : k + j + 1 ≤ 1048576) : (commas k j).Ok := by
  refine ⟨⟨by decide, by decide +kernel, by decide⟩, by unfold uriChar; decide +kernel, by decide, ?_, ?_, by decide, by decide⟩
  · intro c hc
    simp only [List.mem_append, List.mem_singleton, List.mem_replicate] at hc
    rcases hc with (⟨_, rfl⟩ | rfl) | ⟨_, rfl⟩ <;> (unfold queryChar; decide +kernel)
  · simp only [List.length_append, List.length_replicate, List.length_singleton]; omega

/-- **C105 is false for the parameters.** A request of `k + j + 20` bytes, however it is cut: it is accepted, and its
    parameters take `(j + 1) * (k + 1)` bytes, since each of the `j` commas in the value stores the name of `k` bytes once
    more. -/
theorem parameters_multiply (cfg : Cfg) (hr : cfg.isRequest = true) (ho : OrderOk cfg.ord) (hh : cfg.headersOnly = false)
    (hmax : cfg.maxContent + 1 < 2 ^ 64) (k j : Nat) (hk : k ≤ 1024) (h0 : k ≠ 0) (hj : k + j + 1 ≤ 1048576)
    (bufs : List Bytes) (hcut : Cuts bufs (wireHead (commas k j) [])) :
    bufs.flatten.length = k + j + 20 ∧
    ∃ o, outcome cfg (fresh cfg {}) bufs = some o ∧ o.result = .yes ∧ o.message.isValid = true ∧
      space o.message.queries = (j + 1) * (k + 1) := by
  refine ⟨by rw [hcut.flat, commas_length], ?_⟩
  have w : Whole cfg {} (commas k j) := ⟨⟨rfl, rfl, rfl, rfl⟩, ho, hr, hh, hmax⟩
  have hnone : ∀ n, Dict.find? cfg.ord [] n = none := by
    intro n
    have := (ho []).eq_nil
    unfold Dict.find?
    rw [show Dict.values [] n = [] from rfl, this]; rfl
  have hg : Message (reading cfg {}) (commas k j) [] [] [] (wireHead (commas k j) []) [] := by
    refine ⟨_, [], (List.append_nil _).symm, messageHead_wire (commas_ok k j hj) (by simp) _, .none ?_ (.inr ⟨rfl, hnone _⟩)⟩
    rintro ⟨v, hv, _⟩
    have := hnone (b! "Transfer-Encoding")
    rw [show (reading cfg {}).ord = cfg.ord from rfl] at hv
    rw [this] at hv
    cases hv
  rw [← List.append_nil (wireHead (commas k j) [])] at hcut
  obtain ⟨o, e, hd⟩ := HttpFraming.message_accepted cfg {} _ w _ _ _ _ _ hg bufs hcut
  obtain ⟨o', e', _, _, hq, _⟩ := HttpFraming.message_dictionaries cfg {} _ w _ _ _ _ _ hg bufs hcut
  rw [e] at e'
  obtain rfl := Option.some.inj e'
  refine ⟨o, e, hd.complete.result, hd.complete.valid, ?_⟩
  have hget : Dict.get cfg.ord ([] ++ []) (b! "Content-Type") = [] := by
    unfold Dict.get; rw [List.append_nil, hnone]; rfl
  rw [hq (.inr (by rw [hget]; exact ⟨by decide, by decide⟩))]
  have : (List.replicate k (c! "a") ++ [c! "="] ++ List.replicate j (c! ",")).isEmpty = false := by simp
  simp only [lineQueries, commas, this, Bool.false_eq_true, if_false]
  rw [commas_parse k j hk h0, space_replicate]
  simp

/-- **C105 is false for the parameters**, in numbers: a request of one megabyte, as any client can send it, makes the server
    take more than one gigabyte. -/
theorem gigabyte (cfg : Cfg) (hr : cfg.isRequest = true) (ho : OrderOk cfg.ord) (hh : cfg.headersOnly = false)
    (hmax : cfg.maxContent + 1 < 2 ^ 64) :
    ∃ request : Bytes, request.length = 1048594 ∧
      ∃ o, outcome cfg (fresh cfg {}) [request] = some o ∧ o.result = .yes ∧ o.message.isValid = true ∧
        space o.message.queries = 1073739775 := by
  have hl := commas_length 1024 1047550
  refine ⟨wireHead (commas 1024 1047550) [], hl, ?_⟩
  have := (parameters_multiply cfg hr ho hh hmax 1024 1047550 (by decide) (by decide) (by decide)
    [wireHead (commas 1024 1047550) []]
    ⟨by simp, by intro b hb; rw [List.mem_singleton.1 hb]; exact wireHead_ne_nil _ _⟩).2
  obtain ⟨o, h1, h2, h3, h4⟩ := this
  exact ⟨o, h1, h2, h3, h4.trans (by decide)⟩

/-! ### There is no limit -/

/-- **C105: there is no limit on what one message may take.** For every number of bytes there is a request that is accepted
    and whose headers take more: the number of headers is not limited, only the size of each. -/
theorem no_limit (cfg : Cfg) (hr : cfg.isRequest = true) (ho : OrderOk cfg.ord) (hh : cfg.headersOnly = false) (n : Nat) :
    ∃ request : Bytes, ∃ o, outcome cfg (fresh cfg {}) [request] = some o ∧ o.result = .yes ∧
      o.message.isValid = true ∧ n < heldByMessage o.message := by
  have hok : ∀ e ∈ List.replicate (n + 1) (b! "X", ([] : Bytes)), HeaderOk e := by
    intro e he
    rw [(List.mem_replicate.1 he).2]
    exact ⟨⟨by decide, by decide +kernel, by decide⟩, by simp, by decide⟩
  have hset : Setting cfg {} (commas 1 0) (List.replicate (n + 1) (b! "X", [])) :=
    ⟨⟨rfl, rfl, rfl, rfl⟩, ho, hr, commas_ok 1 0 (by decide), hok, hh⟩
  have hnone : ∀ k, iequals (b! "X") k = false →
      Dict.find? cfg.ord (List.replicate (n + 1) (b! "X", ([] : Bytes))) k = none := by
    intro k hk
    have hv : Dict.values (List.replicate (n + 1) (b! "X", ([] : Bytes))) k = [] := by
      unfold Dict.values
      rw [List.filter_eq_nil_iff.2]
      · rfl
      · intro e he; rw [(List.mem_replicate.1 he).2]; simp [hk]
    unfold Dict.find?
    rw [hv, (ho []).eq_nil]; rfl
  obtain ⟨o, e, hc, _, _⟩ := request_without_body cfg {} _ _ hset rfl
    (by rintro ⟨v, hv, _⟩; rw [hnone _ (by decide +kernel)] at hv; cases hv) (hnone _ (by decide +kernel)) []
    [wireHead (commas 1 0) (List.replicate (n + 1) (b! "X", []))]
    ⟨by simp, by intro b hb; rw [List.mem_singleton.1 hb]; exact wireHead_ne_nil _ _⟩
  refine ⟨_, o, e, hc.result, hc.valid, ?_⟩
  have : space o.message.headers = (n + 1) * (1 + 0 + 1) := by rw [hc.headers, space_replicate]; rfl
  unfold heldByMessage
  omega

-- the hypotheses hold for a server and a client, and the bounds say something about a message with a bit of everything
example : OrderOk (id : Dict.Order) ∧ Unused {} ∧ Unused (({} : Msg).clearRequest) :=
  ⟨fun l => List.Perm.refl l, ⟨.inl rfl, rfl, rfl, rfl, rfl, rfl, rfl, rfl, rfl, rfl⟩,
    ⟨.inr rfl, rfl, rfl, rfl, rfl, rfl, rfl, rfl, rfl, rfl⟩⟩
example : (feed { isRequest := true } (fresh { isRequest := true } {})
    [b! "POST /a?b=c,d HTTP/1.1\r\nCookie: x=y\r\nContent-Le", b! "ngth: 3\r\n\r\nabcdef"]).map
      (fun r => (r.1, heldByMessage r.2.1.msg, heldByParser r.2.1, space r.2.1.msg.queries)) =
    some (.yes, 47, 26, 6) := by decide +kernel

end Verif.Props.HttpMemory
