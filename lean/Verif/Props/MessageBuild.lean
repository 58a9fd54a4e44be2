import Verif.Lemmas.MessageBuild
/-
C85: parameters, form fields and cookies that one side puts into a message are those that the other side reads.
-/
namespace Verif.Props.MessageBuild
open Verif.Http Verif.Http.Text Verif.Props.Dict Verif.Props.HttpBody Verif.Props.Message Verif.Spec.MessageBuild
open Verif.Spec.Cookie Verif.Props.HttpFraming Verif.Props.Query Verif.UrlCodec Verif.Query

/-! ### Parameters -/

theorem makeQueryString_chars (ps : Dict) : ∀ c ∈ makeQueryString ps, queryChar c := by
  have enc : ∀ s : Bytes, ∀ c ∈ urlEncode s, queryChar c := by
    intro s c hc
    obtain ⟨-, h1, h2⟩ := UrlCodec.url_encode_no_delimiters s c hc
    have : ∀ c : UInt8, 33 ≤ c.toNat → c.toNat ≤ 126 → queryChar c := by unfold queryChar; decide +kernel
    exact this c h1 h2
  have eq : queryChar (c! "=") ∧ queryChar (c! "&") := by unfold queryChar; decide +kernel
  induction ps using makeQueryString.induct with
  | case1 => simp [makeQueryString]
  | case2 n v =>
    intro c hc
    simp only [makeQueryString, List.mem_append, List.mem_singleton] at hc
    rcases hc with (hc | rfl) | hc
    · exact enc n c hc
    · exact eq.1
    · exact enc v c hc
  | case3 n v r hr ih =>
    intro c hc
    rw [makeQueryString] at hc
    · simp only [List.mem_append, List.mem_singleton] at hc
      rcases hc with (((hc | rfl) | hc) | rfl) | hc
      · exact enc n c hc
      · exact eq.1
      · exact enc v c hc
      · exact eq.2
      · exact ih c hc
    · exact hr

theorem lineQueries_make (t : TableOrder) (m : Msg) (h : ∀ p ∈ t.iter m.queries, PairOk p) :
    lineQueries [] ((m.useQueriesForQueryString t).head true) = t.iter m.queries := by
  have hq : ((m.useQueriesForQueryString t).head true) =
      .request m.method m.resource (makeQueryString (t.iter m.queries)) m.verMajor m.verMinor := rfl
  rw [hq, lineQueries, query_roundtrip_partial _ h]
  split
  · rename_i he
    cases hp : t.iter m.queries with
    | nil => rfl
    | cons p r =>
      rw [hp, List.isEmpty_iff] at he
      have := query_roundtrip_partial (p :: r) (by rw [← hp]; exact h)
      rw [he] at this
      simp [parseUrlEncoded, loop] at this
  · rfl

/-- **C85 (parameters; partial: names are not empty and there are no zero bytes, and the sizes are limited, see
    `PairOk`).** A client makes the query string of a request from its parameters; the server gets these parameters, each as
    often, and everything else of the request (`SameMessage`). -/
theorem parameters_received_partial (cfg : Cfg) (hr : cfg.isRequest = true) (t : TableOrder) (l : Link cfg t) (ka : Bool)
    (m : Msg) (body : Bytes) (hw : Writable true m body) (hmax : body.length ≤ cfg.maxContent) (hf : NotForm m.headers)
    (hq : ∀ p ∈ m.queries, PairOk p) (hs : (makeQueryString (t.iter m.queries)).length ≤ 1048576) :
    Arrives cfg t ka (m.useQueriesForQueryString t) fun r =>
      r.queries.Perm m.queries ∧ SameMessage true ka (m.useQueriesForQueryString t) body r := by
  have hw' : Writable true (m.useQueriesForQueryString t) body := by
    have ho : RequestLineOk m.method m.resource m.queryString m.verMajor m.verMinor := hw.headOk
    exact { hw with
      headOk := (⟨ho.methodOk, ho.resourceOk, ho.resourceSize, makeQueryString_chars _, hs, ho.majorOk, ho.minorOk⟩ :
        RequestLineOk m.method m.resource (makeQueryString (t.iter m.queries)) m.verMajor m.verMinor)
      bodyAllowed := nofun }
  refine (arrives_dictionaries cfg t l ka _ body (by rw [hr]; exact hw') hmax).mono fun r ⟨h1, h2⟩ => ⟨?_, by rw [hr] at h1; exact h1⟩
  rw [h2.plain hf, hr, lineQueries_make t m fun p hp => hq p ((l.tables _).subset hp)]
  exact l.tables _

theorem token_contentType : Token (b! "Content-Type") := ⟨by decide +kernel, by decide +kernel, by decide +kernel⟩

theorem postForm_writable (t : TableOrder) (m : Msg) (body : Bytes) (hw : Writable true m body)
    (hs : (makeQueryString (t.iter m.queries)).length + 1 < 2 ^ 64) :
    Writable true (m.useQueriesForContent t) (makeQueryString (t.iter m.queries)) where
  headOk := by
    have ho : RequestLineOk m.method m.resource m.queryString m.verMajor m.verMinor := hw.headOk
    exact (⟨⟨by decide +kernel, by decide +kernel, by decide +kernel⟩, ho.resourceOk, ho.resourceSize, ho.queryOk, ho.querySize,
      ho.majorOk, ho.minorOk⟩ : RequestLineOk (b! "POST") m.resource m.queryString m.verMajor m.verMinor)
  headersOk := headersOk_change hw.headersOk (fun name hn => ⟨hn, by dsimp only; unfold valueChar; decide +kernel,
    by dsimp only; decide +kernel⟩) token_contentType
  cookiesOk := hw.cookiesOk
  content := rfl
  contentLength := rfl
  size := hs
  sendsLength := hw.sendsLength
  notChunked := by
    unfold NotChunked
    rw [show matching (m.useQueriesForContent t).headers (b! "Transfer-Encoding") = matching m.headers (b! "Transfer-Encoding")
      from matching_change_other _ _ _ _ _ (by decide +kernel)]
    exact hw.notChunked
  bodyAllowed := nofun

/-- **C85 (forms; partial as `parameters_received_partial`).** A client posts its parameters as a form; the server gets a POST
    request with these parameters, each as often. -/
theorem form_received_partial (cfg : Cfg) (hr : cfg.isRequest = true) (t : TableOrder) (l : Link cfg t) (ka : Bool)
    (m : Msg) (body : Bytes) (hw : Writable true m body) (hline : m.queryString = [])
    (hq : ∀ p ∈ m.queries, PairOk p) (hs : (makeQueryString (t.iter m.queries)).length ≤ cfg.maxContent) :
    Arrives cfg t ka (m.useQueriesForContent t) fun r =>
      r.queries.Perm m.queries ∧ r.method = b! "POST" ∧ r.content = (makeQueryString (t.iter m.queries)).map some := by
  have hw' := postForm_writable t m body hw (by have := l.max; omega)
  refine (arrives_dictionaries cfg t l ka _ _ (by rw [hr]; exact hw') hs).mono fun r ⟨h1, h2⟩ => ?_
  obtain ⟨n, -, hn⟩ := matching_change_same (t.pick m.headers (b! "Content-Type")) m.headers (b! "Content-Type")
    (b! "application/x-www-form-urlencoded")
  refine ⟨?_, ?_, h1.content⟩
  · rw [h2.form hr ⟨n, hn⟩]
    have : lineQueries [] ((m.useQueriesForContent t).head true) = [] := by
      have hh : (m.useQueriesForContent t).head true = .request (b! "POST") m.resource m.queryString m.verMajor m.verMinor := rfl
      rw [hh, lineQueries, hline]; rfl
    rw [this, query_roundtrip_partial _ fun p hp => hq p ((l.tables _).subset hp)]
    exact l.tables _
  · have := h1.firstLine
    rw [hr] at this
    exact this.1

/-! ### Content -/

/-- **C85 (content).** A request or response is given content and a content type; the receiver gets this content, and this
    is its only content type. -/
theorem content_received (cfg : Cfg) (t : TableOrder) (l : Link cfg t) (ka : Bool) (m : Msg) (body : Bytes)
    (hw : Writable cfg.isRequest m body) (value ty : Bytes) (hs : value.length ≤ cfg.maxContent)
    (hty : ∀ name, Token name → HeaderOk (name, ty)) (hb : (m.head cfg.isRequest).Bodyless [] → value = []) :
    Arrives cfg t ka ((m.setContent value).setContentType t ty) fun r =>
      r.content = value.map some ∧ r.headers.values (b! "Content-Type") = [ty] := by
  have hw' : Writable cfg.isRequest ((m.setContent value).setContentType t ty) value :=
    { headOk := hw.headOk, headersOk := headersOk_change hw.headersOk hty token_contentType, cookiesOk := hw.cookiesOk
      content := rfl, contentLength := rfl, size := by have := l.max; omega
      sendsLength := hw.sendsLength
      notChunked := by
        unfold NotChunked
        rw [show matching ((m.setContent value).setContentType t ty).headers (b! "Transfer-Encoding") =
          matching m.headers (b! "Transfer-Encoding") from matching_change_other _ _ _ _ _ (by decide +kernel)]
        exact hw.notChunked
      bodyAllowed := hb }
  refine (arrives_dictionaries cfg t l ka _ value hw' hs).mono fun r ⟨h1, _⟩ => ⟨h1.content, ?_⟩
  obtain ⟨n, -, hn⟩ := matching_change_same (t.pick m.headers (b! "Content-Type")) m.headers (b! "Content-Type") ty
  have := h1.others (b! "Content-Type") (by decide +kernel) (by decide +kernel) (by cases cfg.isRequest <;> decide +kernel)
  rw [show matching ((m.setContent value).setContentType t ty).headers (b! "Content-Type") = [(n, ty)] from hn,
    List.perm_singleton] at this
  rw [values_eq, this]
  rfl

/-- **C85 (content is cleared).** After `clear_content` neither the content nor a content type is sent. -/
theorem cleared_content_received (cfg : Cfg) (t : TableOrder) (l : Link cfg t) (ka : Bool) (m : Msg) (body : Bytes)
    (hw : Writable cfg.isRequest m body) :
    Arrives cfg t ka m.clearContent fun r =>
      r.content = [] ∧ r.headers.values (b! "Content-Type") = [] ∧
      ∀ k, iequals k (b! "Connection") = false → iequals k (b! "Content-Length") = false →
        iequals k (if cfg.isRequest then b! "Cookie" else b! "Set-Cookie") = false → iequals (b! "Content-Type") k = false →
        (matching r.headers k).Perm (matching m.headers k) := by
  have hk : ∀ k, iequals (b! "Content-Type") k = false →
      matching (m.headers.delete (b! "Content-Type")) k = matching m.headers k := by
    intro k hk
    unfold matching Dict.delete
    rw [List.filter_filter]
    refine List.filter_congr fun e _ => ?_
    cases he : iequals e.1 k with
    | false => rfl
    | true =>
      cases hc : iequals e.1 (b! "Content-Type") with
      | false => rfl
      | true =>
        rw [Props.Dict.iequals_symm] at hc
        rw [Props.Dict.iequals_trans hc he] at hk
        cases hk
  have hw' : Writable cfg.isRequest m.clearContent [] :=
    { headOk := hw.headOk, headersOk := fun e he => hw.headersOk e ((List.mem_filter.1 he).1), cookiesOk := hw.cookiesOk
      content := rfl, contentLength := rfl, size := by decide
      sendsLength := hw.sendsLength
      notChunked := by
        unfold NotChunked
        rw [show matching m.clearContent.headers (b! "Transfer-Encoding") = matching m.headers (b! "Transfer-Encoding") from
          hk _ (by decide +kernel)]
        exact hw.notChunked
      bodyAllowed := fun _ => rfl }
  refine (arrives_dictionaries cfg t l ka _ [] hw' (Nat.zero_le _)).mono fun r ⟨h1, _⟩ => ⟨h1.content, ?_, ?_⟩
  · have := h1.others (b! "Content-Type") (by decide +kernel) (by decide +kernel) (by cases cfg.isRequest <;> decide +kernel)
    rw [show matching m.clearContent.headers (b! "Content-Type") = [] from by
      unfold matching Msg.clearContent Dict.delete
      rw [List.filter_filter, List.filter_eq_nil_iff]
      intro e _
      cases iequals e.1 (b! "Content-Type") <;> simp, List.perm_nil] at this
    rw [values_eq, this]
    rfl
  · intro k h2 h3 h4 h5
    have := h1.others k h2 h3 h4
    rwa [show matching m.clearContent.headers k = matching m.headers k from hk k h5] at this

/-! ### Cookies -/

/-- **C85 (cookies of a request; partial: cookies that can be written `name=value`, see `RequestCookie`).** The server gets
    the cookies that the client has put into the request. -/
theorem request_cookies_received_partial (cfg : Cfg) (hr : cfg.isRequest = true) (t : TableOrder) (l : Link cfg t) (ka : Bool)
    (m : Msg) (body : Bytes) (hw : Writable true m body) (hmax : body.length ≤ cfg.maxContent)
    (hno : m.headers.values (b! "Cookie") = []) (hc : ∀ c ∈ m.cookies, RequestCookie c) :
    Arrives cfg t ka m fun r => r.cookies.Perm m.cookies ∧ SameMessage true ka m body r := by
  refine (arrives_dictionaries cfg t l ka m body (by rw [hr]; exact hw) hmax).mono fun r ⟨h1, h2⟩ => ⟨?_, by rw [hr] at h1; exact h1⟩
  rw [h2.requestCookies hr]
  refine (cookies_of_headers false cfg.ord l.order _ _ rfl).trans ?_
  refine ((values_perm (l.tables _) _).flatMap_right _).trans ?_
  rw [values_eq, matching_sent_plain _ _ _ _ _ _ (by unfold plainName; decide +kernel), List.map_append,
    matching_cookies_all _ _ _ (by decide +kernel), ← values_eq, hno, List.nil_append, List.map_map]
  have : (List.map ((fun x => x.2) ∘ Msg.cookieHeader true) (t.iter m.cookies)).flatMap
      (fun v => (Cookie.parseCookieHeader [] v false).2) = t.iter m.cookies := by
    have hall : ∀ c ∈ t.iter m.cookies, RequestCookie c := fun c h => hc c ((l.tables _).subset h)
    generalize t.iter m.cookies = d at hall
    induction d with
    | nil => rfl
    | cons c d ih =>
      rw [List.map_cons, List.flatMap_cons, ih fun x hx => hall x (List.mem_cons_of_mem _ hx)]
      exact congrArg (· ++ d) (parse_requestCookie (hall c List.mem_cons_self))
  rw [this]
  exact l.tables _

theorem setAll_eq (cs : List SetCookie) : ∀ m : Msg, setAll m cs = { m with headers := (m.headers ++
    cs.map fun c => (b! "Set-Cookie", Msg.setCookieHeader c.name c.value c.path c.maxAge) : Dict) } := by
  induction cs with
  | nil => intro m; simp [setAll]
  | cons c r ih =>
    intro m
    have : setAll m (c :: r) = setAll (m.setCookie c.name c.value c.path c.maxAge) r := rfl
    rw [this, ih]
    simp [Msg.setCookie, Dict.insert]

theorem setAll_writable {m : Msg} {body : Bytes} (hw : Writable false m body) {cs : List SetCookie} (hc : ∀ c ∈ cs, c.Ok) :
    Writable false (setAll m cs) body := by
  rw [setAll_eq]
  exact { hw with
    headersOk := by
      intro e he
      rcases List.mem_append.1 he with he | he
      · exact hw.headersOk e he
      · obtain ⟨c, hcs, rfl⟩ := List.mem_map.1 he
        exact setCookie_headerOk (hc c hcs)
    notChunked := by
      intro e he
      refine hw.notChunked e ?_
      dsimp only at he
      rw [matching_append] at he
      rcases List.mem_append.1 he with he | he
      · exact he
      · obtain ⟨h1, h2⟩ := List.mem_filter.1 he
        obtain ⟨c, -, rfl⟩ := List.mem_map.1 h1
        have : iequals (b! "Set-Cookie") (b! "Transfer-Encoding") = false := by decide +kernel
        dsimp only at h2
        rw [this] at h2
        cases h2 }

/-- A cookie of a message, as it is sent. -/
def asSet (c : Bytes × Bytes) : SetCookie := { name := c.1, value := c.2 }

theorem flatMap_parse (cs : List SetCookie) (hc : ∀ c ∈ cs, c.Ok) :
    (cs.map fun c => Msg.setCookieHeader c.name c.value c.path c.maxAge).flatMap
      (fun v => (Cookie.parseCookieHeader [] v true).2) = cs.map fun c => (c.name, c.value) := by
  induction cs with
  | nil => rfl
  | cons c r ih =>
    rw [List.map_cons, List.flatMap_cons, ih fun x hx => hc x (List.mem_cons_of_mem _ hx), parse_setCookie (hc c List.mem_cons_self)]
    rfl

/-- **C85 (cookies of a response; partial: cookies that can be written `name="value"`, see `SetCookie.Ok`).** The client gets
    the cookies that the server has set, whatever their paths and ages, and those that are in the table of the response. -/
theorem response_cookies_received_partial (cfg : Cfg) (hr : cfg.isRequest = false) (t : TableOrder) (l : Link cfg t) (ka : Bool)
    (m : Msg) (body : Bytes) (hw : Writable false m body) (hmax : body.length ≤ cfg.maxContent)
    (hno : m.headers.values (b! "Set-Cookie") = []) (hm : ∀ c ∈ m.cookies, (asSet c).Ok)
    (cs : List SetCookie) (hc : ∀ c ∈ cs, c.Ok) :
    Arrives cfg t ka (setAll m cs) fun r => r.cookies.Perm (cs.map (fun c => (c.name, c.value)) ++ m.cookies) ∧
      SameMessage false ka (setAll m cs) body r := by
  refine (arrives_dictionaries cfg t l ka _ body (by rw [hr]; exact setAll_writable hw hc) hmax).mono
    fun r ⟨h1, h2⟩ => ⟨?_, by rw [hr] at h1; exact h1⟩
  rw [h2.responseCookies hr]
  refine (cookies_of_headers true cfg.ord l.order _ _ rfl).trans ?_
  refine ((values_perm (l.tables _) _).flatMap_right _).trans ?_
  rw [values_eq, matching_sent_plain _ _ _ _ _ _ (by unfold plainName; decide +kernel), List.map_append,
    matching_cookies_all _ _ _ (by decide +kernel), setAll_eq]
  dsimp only
  rw [matching_append, List.map_append, ← values_eq, hno, List.nil_append, List.map_map, List.flatMap_append]
  have h3 : matching (cs.map fun c => (b! "Set-Cookie", Msg.setCookieHeader c.name c.value c.path c.maxAge)) (b! "Set-Cookie") =
      cs.map fun c => (b! "Set-Cookie", Msg.setCookieHeader c.name c.value c.path c.maxAge) := by
    unfold matching
    rw [List.filter_eq_self]
    intro e he
    obtain ⟨c, -, rfl⟩ := List.mem_map.1 he
    exact (by decide +kernel : iequals (b! "Set-Cookie") (b! "Set-Cookie") = true)
  rw [h3, List.map_map]
  refine List.Perm.append (by rw [show List.map _ cs = _ from rfl]; exact .of_eq (flatMap_parse cs hc)) ?_
  have h4 := flatMap_parse ((t.iter m.cookies).map asSet) (by
    intro c hcm
    obtain ⟨x, hx, rfl⟩ := List.mem_map.1 hcm
    exact hm x ((l.tables _).subset hx))
  rw [List.map_map, List.map_map] at h4
  refine .trans (.of_eq h4) ?_
  rw [show ((fun c : SetCookie => (c.name, c.value)) ∘ asSet) = id from rfl, List.map_id]
  exact l.tables _

/-! ### What the receiver finds -/

/-- If the sender has one value under a name, the receiver finds it. -/
theorem found {a b : Dict} (h : a.Perm b) (ord : Dict.Order) (ho : Http.OrderOk ord) (k n v : Bytes)
    (hone : matching b k = [(n, v)]) : a.get ord k = v := by
  have := matching_perm h k
  rw [hone, List.perm_singleton] at this
  unfold Dict.get
  rw [find?_single ho this]; rfl

/-- **C85 (a cookie comes back).** A server sets a cookie; the client puts the cookies it got into its next request; the
    server finds the value of the cookie under its name. -/
theorem cookie_comes_back (cfg ccfg : Cfg) (hs : cfg.isRequest = true) (hc : ccfg.isRequest = false) (t ct : TableOrder)
    (l : Link cfg ct) (cl : Link ccfg t) (ka ka' : Bool)
    (m : Msg) (body : Bytes) (hw : Writable false m body) (hmax : body.length ≤ ccfg.maxContent)
    (hno : m.headers.values (b! "Set-Cookie") = []) (hm : m.cookies = []) (c : SetCookie) (ok : c.Ok)
    (ok' : RequestCookie (c.name, c.value)) :
    Arrives ccfg t ka (m.setCookie c.name c.value c.path c.maxAge) fun r =>
      ∀ (q : Msg) (qbody : Bytes), Writable true q qbody → qbody.length ≤ cfg.maxContent →
        q.headers.values (b! "Cookie") = [] → q.cookies = r.cookies →
        Arrives cfg ct ka' q fun r' => Dict.get cfg.ord r'.cookies c.name = c.value := by
  refine (response_cookies_received_partial ccfg hc t cl ka m body hw hmax hno (by simp [hm]) [c] (by simpa using ok)).mono ?_
  rintro r ⟨h1, -⟩ q qbody hq hqm hqn hqc
  rw [hm, List.append_nil] at h1
  have h1 : r.cookies = [(c.name, c.value)] := List.perm_singleton.1 h1
  refine (request_cookies_received_partial cfg hs ct l ka' q qbody hq hqm hqn (by rw [hqc, h1]; simpa using ok')).mono ?_
  rintro r' ⟨h2, -⟩
  rw [hqc, h1] at h2
  refine found h2 cfg.ord l.order c.name c.name c.value ?_
  unfold matching
  simp [iequals]

/-! ### Concrete messages -/

/-- What a receiver with default settings gets of a message. -/
def receive (isRequest : Bool) (m : Msg) : Option Outcome :=
  (m.transmit {} isRequest true false).bind fun x =>
    outcome { isRequest := isRequest } (fresh { isRequest := isRequest } {}) [x.2]

/-- The cookies, and the parameters. -/
def cookies (isRequest : Bool) (m : Msg) : Option Dict := (receive isRequest m).map (·.message.cookies)
def queries (m : Msg) : Option Dict := (receive true m).map (·.message.queries)

theorem defaultLink (isRequest : Bool) : Link { isRequest := isRequest } {} :=
  ⟨fun d => .refl d, fun d => .refl d, rfl, rfl, by show (1024 * 1024 : Nat) + 1 < 2 ^ 64; decide +kernel⟩

/-- A request with parameters (one of them twice) and a cookie. -/
def query : Msg :=
  (((({ resource := b! "/find" } : Msg).addQuery (b! "q") (b! "a&b c")).addQuery (b! "x") []).addQuery (b! "q") (b! "=")).addCookie
    (b! "sid") (b! "7")

theorem query_writable : Writable true query [] where
  headOk := (⟨⟨by decide +kernel, by decide +kernel, by decide +kernel⟩, by unfold uriChar; decide +kernel,
    by decide +kernel, by unfold queryChar; decide +kernel, by decide +kernel, by decide +kernel, by decide +kernel⟩ :
    RequestLineOk query.method query.resource query.queryString query.verMajor query.verMinor)
  headersOk := nofun
  cookiesOk := by
    intro e he
    rw [show query.cookies = [(b! "sid", b! "7")] by rfl, List.mem_singleton] at he
    subst he
    exact ⟨⟨by decide +kernel, by decide +kernel, by decide +kernel⟩, by unfold valueChar; decide +kernel, by decide +kernel⟩
  content := rfl
  contentLength := rfl
  size := by decide +kernel
  sendsLength := rfl
  notChunked := nofun
  bodyAllowed := nofun

theorem query_pairs : ∀ p ∈ query.queries, PairOk p := by
  intro p hp
  rw [show query.queries = [(b! "q", b! "a&b c"), (b! "x", []), (b! "q", b! "=")] by rfl] at hp
  simp only [List.mem_cons, List.not_mem_nil, or_false] at hp
  rcases hp with rfl | rfl | rfl <;> exact ⟨by decide, by decide +kernel, by decide +kernel, by decide +kernel, by decide +kernel⟩

/-- The hypotheses of the theorems about requests are met. -/
example : Arrives { isRequest := true } {} true (query.useQueriesForQueryString {}) fun r => r.queries.Perm query.queries :=
  (parameters_received_partial _ rfl _ (defaultLink true) true query [] query_writable (by simp) nofun query_pairs
    (by decide +kernel)).mono fun _ h => h.1
example : Arrives { isRequest := true } {} true (query.useQueriesForContent {}) fun r => r.queries.Perm query.queries :=
  (form_received_partial _ rfl _ (defaultLink true) true query [] query_writable rfl query_pairs
    (by decide +kernel)).mono fun _ h => h.1
example : Arrives { isRequest := true } {} true query fun r => r.cookies.Perm query.cookies :=
  (request_cookies_received_partial _ rfl _ (defaultLink true) true query [] query_writable (by simp) rfl (by
    intro c hc
    rw [show query.cookies = [(b! "sid", b! "7")] by rfl, List.mem_singleton] at hc
    subst hc
    exact ⟨⟨by decide, by decide +kernel, by decide +kernel⟩, ⟨by decide +kernel, by decide +kernel, by
      intro c hc; cases hc; decide +kernel⟩, by decide +kernel, by decide +kernel⟩)).mono fun _ h => h.1

example : Arrives { isRequest := true } {} true ((query.setContent (b! "hello")).setContentType {} (b! "text/plain")) fun r =>
    r.content = (b! "hello").map some ∧ r.headers.values (b! "Content-Type") = [b! "text/plain"] :=
  content_received _ _ (defaultLink true) true query [] query_writable _ _ (by decide +kernel)
    (fun name hn => ⟨hn, by dsimp only; unfold valueChar; decide +kernel, by dsimp only; decide +kernel⟩) nofun
example : ((((query.setContent (b! "hello")).setContentType {} (b! "text/plain")).clearContent).transmit {} true true false).map (·.2) =
    some (b! "GET /find HTTP/1.1\r\nConnection: Keep-Alive\r\nContent-Length: 0\r\nCookie: sid=7\r\n\r\n") := by
  decide +kernel
example : Arrives { isRequest := true } {} true query.clearContent fun r => r.content = [] ∧ r.headers.values (b! "Content-Type") = [] :=
  (cleared_content_received _ _ (defaultLink true) true query [] query_writable).mono fun _ h => ⟨h.1, h.2.1⟩

example : ((query.useQueriesForQueryString {}).transmit {} true true false).map (·.2) = some (b!
    "GET /find?q=a%26b%20c&x=&q=%3D HTTP/1.1\r\nConnection: Keep-Alive\r\nContent-Length: 0\r\nCookie: sid=7\r\n\r\n") := by
  decide +kernel
example : ((query.useQueriesForContent {}).transmit {} true true false).map (·.2) = some (b!
    "POST /find HTTP/1.1\r\nContent-Type: application/x-www-form-urlencoded\r\nConnection: Keep-Alive\r\nContent-Length: 20\r\nCookie: sid=7\r\n\r\nq=a%26b%20c&x=&q=%3D") := by
  decide +kernel
example : queries (query.useQueriesForQueryString {}) = some query.queries ∧ queries (query.useQueriesForContent {}) = some query.queries ∧
    cookies true query = some [(b! "sid", b! "7")] := by decide +kernel

/-- The cookie of a session, as `cookie_auth` sets it, and one with path and age. -/
def session : SetCookie := { name := b! "pion_session_id", value := b! "q\\0k;, '", path := [] }
def lasting : SetCookie := { name := b! "b", value := b! "2", path := b! "/x", maxAge := some 60 }

theorem session_ok : session.Ok :=
  ⟨⟨by decide, by decide +kernel, by decide +kernel⟩, ⟨by decide +kernel, by unfold valueChar; decide +kernel⟩,
    ⟨by decide +kernel, nofun, nofun⟩, by decide +kernel, nofun, by decide +kernel⟩
theorem lasting_ok : lasting.Ok :=
  ⟨⟨by decide, by decide +kernel, by decide +kernel⟩, ⟨by decide +kernel, by unfold valueChar; decide +kernel⟩,
    ⟨by decide +kernel, by decide +kernel, by intro c hc; cases hc; decide +kernel⟩, by decide +kernel,
    by intro n hn; cases hn; decide +kernel, by decide +kernel⟩

theorem response_writable : Writable false {} [] where
  headOk := (⟨by unfold textChar; decide +kernel, by decide +kernel, by decide +kernel, by decide +kernel, by decide +kernel⟩ :
    StatusLineOk 1 1 200 (b! "OK"))
  headersOk := nofun
  cookiesOk := nofun
  content := rfl
  contentLength := rfl
  size := by decide +kernel
  sendsLength := rfl
  notChunked := nofun
  bodyAllowed := fun _ => rfl

example : Arrives { isRequest := false } {} true (setAll {} [session, lasting]) fun r =>
    r.cookies.Perm [(session.name, session.value), (lasting.name, lasting.value)] :=
  (response_cookies_received_partial _ rfl _ (defaultLink false) true {} [] response_writable (by simp) rfl nofun
    [session, lasting] (by
      intro c hc
      simp only [List.mem_cons, List.not_mem_nil, or_false] at hc
      rcases hc with rfl | rfl
      · exact session_ok
      · exact lasting_ok)).mono fun _ h => h.1
example : ((setAll {} [session, lasting]).transmit {} false true false).map (·.2) = some (b!
    "HTTP/1.1 200 OK\r\nSet-Cookie: pion_session_id=\"q\\0k;, '\"; Version=1\r\nSet-Cookie: b=\"2\"; Version=1; Path=/x; Max-Age=60\r\nConnection: Keep-Alive\r\nContent-Length: 0\r\n\r\n") := by
  decide +kernel

/-- The hypotheses of `cookie_comes_back` are met: `lasting` can also be sent in a request. -/
example : RequestCookie (lasting.name, lasting.value) :=
  ⟨⟨by decide, by decide +kernel, by decide +kernel⟩, ⟨by decide +kernel, by decide +kernel, by
    intro c hc; cases hc; decide +kernel⟩, by decide +kernel, by decide +kernel⟩

/-! ### What does not arrive -/

/-- The default request. -/
def get : Msg := { resource := b! "/" }

/-- **Finding: values of cookies in requests are not quoted.** A semicolon or comma in the value ends it, and what follows
    becomes another cookie; spaces and quotes at its beginning are lost. A value that a server has set can therefore come
    back as something else (`session` is such a value). -/
theorem request_cookie_split :
    cookies true (get.addCookie (b! "a") (b! "1;admin=yes")) = some [(b! "a", b! "1"), (b! "admin", b! "yes")] ∧
    cookies true (get.addCookie (b! "a") (b! "1,2")) = some [(b! "a", b! "1"), (b! "2", [])] ∧
    cookies true (get.addCookie (b! "a") (b! " 1")) = some [(b! "a", b! "1")] ∧
    cookies true (get.addCookie (b! "a") (b! "'x'y")) = some [(b! "a", b! "x")] ∧
    cookies false (setAll {} [session]) = some [(b! "pion_session_id", session.value)] ∧
    cookies true (get.addCookie (b! "pion_session_id") session.value) =
      some [(b! "pion_session_id", b! "q\\0k"), (b! "'", [])] := by
  refine ⟨?_, ?_, ?_, ?_, ?_, ?_⟩ <;> decide +kernel

/-- **Finding: a double quote ends the value of a cookie in a response**, and the path is not checked: it can set another
    cookie. Cookies with the name of an attribute are not seen by the client. -/
theorem response_cookie_cut :
    cookies false (setAll {} [{ name := b! "a", value := b! "x\"y" }]) = some [(b! "a", b! "x")] ∧
    cookies false (setAll {} [{ name := b! "a", value := b! "1", path := b! "/; b=2" }]) = some [(b! "a", b! "1"), (b! "b", b! "2")] ∧
    cookies false (setAll {} [{ name := b! "Path", value := b! "1" }]) = some [] := by
  decide +kernel

/-- A deleted cookie is one with an empty value for the client. -/
theorem deleted_cookie_received : cookies false (({} : Msg).deleteCookie (b! "a")) = some [(b! "a", [])] := by decide +kernel

/-- What a browser gets to delete the cookie at once. -/
theorem deleted_cookie_expires (m : Msg) (name path : Bytes) : (m.deleteCookie name path).headers =
    m.headers ++ [(b! "Set-Cookie", name ++ b! "=\"\"; Version=1" ++ (if path.isEmpty then [] else b! "; Path=" ++ path) ++ b! "; Max-Age=0")] := by
  simp [Msg.deleteCookie, Msg.setCookie, Msg.setCookieHeader, Dict.insert, show toDec 0 = b! "0" by decide +kernel]

/-- **Finding: `delete_cookie` of a response does not undo `add_cookie`.** It hides the function of `message` that does, so
    that both cookies are sent. -/
theorem delete_after_add_sends_both :
    cookies false ((({} : Msg).addCookie (b! "a") (b! "1")).deleteCookie (b! "a")) = some [(b! "a", []), (b! "a", b! "1")] := by
  decide +kernel

/-- **Finding: sending a message again sends its cookies twice.** The headers made for the cookies stay in the message. -/
theorem sent_twice_doubles_cookies :
    (((({} : Msg).addCookie (b! "a") (b! "1")).transmit {} false true false).bind fun x => cookies false x.1) =
      some [(b! "a", b! "1"), (b! "a", b! "1")] ∧
    ((query.transmit {} true true false).bind fun x => cookies true x.1) = some [(b! "sid", b! "7"), (b! "sid", b! "7")] := by
  decide +kernel

/-- Parameters that are put into the query string and posted as well arrive twice. -/
theorem both_ways_doubles : queries ((get.addQuery (b! "a") (b! "1")).useQueriesForQueryString {} |>.useQueriesForContent {}) =
    some [(b! "a", b! "1"), (b! "a", b! "1")] := by decide +kernel

/-- Parameters with empty names do not arrive, and zero bytes are changed (C20). -/
theorem parameters_lost : queries ((get.addQuery [] (b! "1")).useQueriesForQueryString {}) = some [] ∧
    queries ((get.addQuery (b! "a") [0]).useQueriesForContent {}) = some [(b! "a", b! "%00")] := by decide +kernel

/-- Parameters that have not been put into the query string or the content are not sent. -/
theorem parameters_not_sent : queries (get.addQuery (b! "a") (b! "1")) = some [] := by decide +kernel

/-- **Finding: setting an empty content from a buffer keeps the old content**; from a string it does not. -/
theorem empty_buffer_keeps_content :
    (receive true ((get.setContent (b! "old")).setContentBuffer [])).map (·.message.content) = some ((b! "old").map some) ∧
    (receive true ((get.setContent (b! "old")).setContent [])).map (·.message.content) = some [] ∧
    (receive true ((get.setContent (b! "old")).clearContent)).map (·.message.content) = some [] := by decide +kernel

end Verif.Props.MessageBuild
