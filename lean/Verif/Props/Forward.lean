import Verif.Lemmas.Forward
import Verif.Props.Message
import Verif.Props.HttpUntilClose
/-
C102: a message that was received can be sent on to another receiver (what a proxy or a gateway does with the objects of
this library).
-/
namespace Verif.Props.Forward
open Verif.Http Verif.Http.Text Verif.Cookie Verif.Props.HttpBody Verif.Props.HttpFraming
open Verif.Props.Dict (matching)
open Verif.Props.HttpSegmentation Verif.Props.Message Verif.Props.HttpUntilClose

/-- A message object that the parser fills for the first time. -/
structure New (m : Msg) : Prop extends Blank m where
  noCookies : m.cookies = []
  sendsLength : m.doNotSendContentLength = false

/-- A request with a version (1.0 or later). -/
def Versioned : Head → Prop
  | .request _ _ _ major _ => 1 ≤ major
  | .response .. => True

/-- The headers with cookies are not so long that a generated one could not be read. -/
def ShortCookies (isRequest : Bool) (hs : Dict) : Prop := ∀ e ∈ matching hs (cookieName isRequest), e.2.length ≤ 1048000

theorem number_lt {n : Nat} {t : Bytes} (h : Number n t) : n < 65536 := by
  rw [h.2.2]; exact Nat.mod_lt _ (by decide)

theorem version_lt {r : Bool} {a b : Nat} {t : Bytes} (h : Version r a b t) : a < 65536 ∧ b < 65536 := by
  obtain ⟨_, _, _, _, _, h1, h2, _⟩ := h
  exact ⟨number_lt h1, number_lt h2⟩

/-- What the parser takes for a first line can be written, if it has a version. -/
theorem firstLine_ok {h : Head} {f : Bytes} (hf : FirstLine h f) (hv : Versioned h) : h.Ok := by
  cases hf with
  | request h1 h2 h3 h4 h5 h6 h7 h8 =>
    rcases h8 with ⟨_, rfl, _⟩ | ⟨x, _, h8⟩
    · exact absurd hv (by simp [Versioned])
    · exact ⟨h2, h3, h4, h5, h6, ⟨hv, (version_lt h8).1⟩, (version_lt h8).2⟩
  | response h1 h2 h3 h4 h5 => exact ⟨h3, h4, (version_lt h1).1, (version_lt h1).2, number_lt h2⟩

theorem fields_ok {old : Bool} {hs : Dict} {t : Bytes} (h : Fields old hs t) : ∀ e ∈ hs, HeaderOk e := by
  induction h with
  | nil => simp
  | snoc h1 h2 h3 h4 h5 ih =>
    intro e he
    rcases List.mem_append.1 he with he | he
    · exact ih e he
    · rw [List.mem_singleton] at he; subst he; exact h5.ok

theorem head_ok {h : Head} {hs : Dict} {t rest : Bytes} (hh : MessageHead h hs t rest) (hv : Versioned h) :
    h.Ok ∧ ∀ e ∈ hs, HeaderOk e := by
  obtain ⟨f, l, _, h1, f2, e, _, h2, _⟩ := hh
  exact ⟨firstLine_ok h1 hv, fields_ok h2⟩

theorem head_of_stored {h : Head} {m : Msg} (hs : h.StoredIn m) : m.head h.isRequest = h := by
  cases h with
  | request => obtain ⟨rfl, rfl, _, rfl, rfl, rfl⟩ := hs; rfl
  | response => obtain ⟨rfl, rfl, rfl, rfl⟩ := hs; rfl

/-- A cookie that was read from a header can be written as a header. -/
theorem cookie_ok (r : Bool) {c : Bytes × Bytes} {v : Bytes} (h : FromText c v) (hv : ∀ x ∈ v, valueChar x)
    (hl : v.length ≤ 1048000) : HeaderOk (Msg.cookieHeader r c) := by
  have h1 : ∀ x ∈ c.1, valueChar x := fun x hx => hv x (h.2 x (List.mem_append_left _ hx))
  have h2 : ∀ x ∈ c.2, valueChar x := fun x hx => hv x (h.2 x (List.mem_append_right _ hx))
  have h3 := h.1
  cases r with
  | true =>
    refine ⟨⟨(by decide +kernel : b! "Cookie" ≠ []), (by decide +kernel : ∀ c ∈ b! "Cookie", badToken c = false),
      (by decide +kernel : (b! "Cookie").length ≤ 1024)⟩, ?_, ?_⟩
    · intro x hx
      rcases List.mem_append.1 hx with hx | hx
      · rcases List.mem_append.1 hx with hx | hx
        · exact h1 x hx
        · exact (by unfold valueChar; decide +kernel : ∀ x ∈ b! "=", valueChar x) x hx
      · exact h2 x hx
    · change (c.1 ++ b! "=" ++ c.2).length ≤ _
      have : (b! "=").length = 1 := by decide +kernel
      simp only [List.length_append, this]
      omega
  | false =>
    have e : (Msg.cookieHeader false c).2 = c.1 ++ b! "=\"" ++ c.2 ++ b! "\"; Version=1; Path=/" := by
      change c.1 ++ b! "=\"" ++ c.2 ++ b! "\"; Version=1" ++ (b! "; Path=" ++ b! "/") ++ [] = _
      rw [List.append_nil, List.append_assoc _ (b! "\"; Version=1")]
      rfl
    refine ⟨⟨(by decide +kernel : b! "Set-Cookie" ≠ []), (by decide +kernel : ∀ c ∈ b! "Set-Cookie", badToken c = false),
      (by decide +kernel : (b! "Set-Cookie").length ≤ 1024)⟩, ?_, ?_⟩
    · rw [e]
      intro x hx
      rcases List.mem_append.1 hx with hx | hx
      · rcases List.mem_append.1 hx with hx | hx
        · rcases List.mem_append.1 hx with hx | hx
          · exact h1 x hx
          · exact (by unfold valueChar; decide +kernel : ∀ x ∈ b! "=\"", valueChar x) x hx
        · exact h2 x hx
      · exact (by unfold valueChar; decide +kernel : ∀ x ∈ b! "\"; Version=1; Path=/", valueChar x) x hx
    · rw [e]
      have e1 : (b! "=\"").length = 2 := by decide +kernel
      have e2 : (b! "\"; Version=1; Path=/").length = 20 := by decide +kernel
      simp only [List.length_append, e1, e2]
      omega

/-- What was delivered can be written. -/
theorem writable_of {cfg : Cfg} {m : Msg} {h : Head} (hkind : cfg.isRequest = h.isRequest) (hhand : cfg.handler = false)
    (hmax : cfg.maxContent + 1 < 2 ^ 64) {hs : Dict} {data rest : Bytes} {o : Outcome} (hd : Delivered cfg h hs data [] rest o)
    (hok : h.Ok ∧ ∀ e ∈ hs, HeaderOk e) (hk : Kept cfg.isRequest o.message) (hck : ShortCookies cfg.isRequest hs)
    (hnc : NotChunked hs) (hbody : h.Bodyless m.requestMethod → data = []) :
    Writable cfg.isRequest o.message (data.take cfg.maxContent) := by
  have hhs : o.message.headers = hs := by rw [hd.complete.headers, List.append_nil]
  have hhead : o.message.head cfg.isRequest = h := by rw [hkind]; exact head_of_stored hd.complete.stored
  have hda := hd.data
  rw [hhand] at hda
  refine ⟨by rw [hhead]; exact hok.1, by rw [hhs]; exact hok.2, fun c hc => ?_, hda, ?_, ?_, hk.length, by rw [hhs]; exact hnc, ?_⟩
  · obtain ⟨e, he, hn, hf⟩ := hk.cookies c hc
    rw [hhs] at he
    exact cookie_ok _ hf (hok.2 e he).value (hck e (List.mem_filter.2 ⟨he, hn⟩))
  · rw [hd.length hhand, List.length_take, Nat.min_comm]
  · rw [List.length_take]; omega
  · rw [hhead]
    intro hb
    have : h.Bodyless m.requestMethod := by
      cases h with
      | request => exact hb
      | response =>
        rcases hb with hb | hb
        · exact absurd hb (by decide +kernel)
        · exact .inr hb
    rw [hbody this, List.take_nil]

theorem notChunked_announces {ord : Dict.Order} (ho : OrderOk ord) {hs : Dict} (h : NotChunked hs) : ¬ AnnouncesChunks ord hs := by
  rintro ⟨v, hv, hch⟩
  obtain ⟨name, hmem⟩ := find?_mem ho hv
  exact h _ hmem hch

theorem kept_new {m : Msg} (hm : New m) (r : Bool) : Kept r m := ⟨hm.sendsLength, by rw [hm.noCookies]; simp⟩

/-- The next receiver: a parser for the same kind of message, without payload handler, that reads whole messages of this
    size. -/
structure Next (isRequest : Bool) (n : Nat) (cfg : Cfg) : Prop where
  kind : cfg.isRequest = isRequest
  order : OrderOk cfg.ord
  whole : cfg.headersOnly = false
  noHandler : cfg.handler = false
  max : n ≤ cfg.maxContent

/-- `m` is sent (with `message::send` over a connection that is kept alive or not, or with `write`), and any next receiver,
    whatever it used its message object for before, gets the same message (see `SameMessage`): the first line, the content,
    and the headers, in whatever pieces it arrives and whatever follows. -/
def PassedOn (isRequest : Bool) (m : Msg) (body : Bytes) : Prop :=
  ∀ (next : Cfg), Next isRequest body.length next → ∀ (t : TableOrder), t.Ok → ∀ (ka : Bool) (used : Msg) (tail : Bytes),
    ∃ m' wire, m.transmit t isRequest ka false = some (m', wire) ∧ ∀ bufs, Cuts bufs (wire ++ tail) →
      ∃ o, outcome next (fresh next (used.clear isRequest)) bufs = some o ∧ o.result = .yes ∧ o.error = none ∧
        o.unread = tail ∧ SameMessage isRequest ka m body o.message

theorem passedOn {r : Bool} {m : Msg} {body : Bytes} (h : Writable r m body) : PassedOn r m body := by
  intro next hn t ht ka used tail
  obtain ⟨rfl, h2, h3, h4, h5⟩ := hn
  exact send_receive_partial next h2 h3 h4 t ht ka m used body h h5 tail

theorem notChunked_left {a b : Dict} (h : NotChunked (a ++ b)) : NotChunked a := by
  intro e he
  exact h e (by unfold matching at *; rw [List.filter_append]; exact List.mem_append_left _ he)

/-- A body that is not chunked has no trailers, and is empty where none is allowed. -/
theorem body_plain {r : Reading} {h : Head} {hs : Dict} {data : Bytes} {tr : Dict} {b rest : Bytes}
    (hb : Body r h hs data tr b rest) (hnc : ¬ AnnouncesChunks r.ord hs) : tr = [] ∧ (h.Bodyless r.rm → data = []) := by
  cases hb with
  | none => exact ⟨rfl, fun _ => rfl⟩
  | length _ h2 => exact ⟨rfl, fun h => absurd h h2⟩
  | chunks h1 => exact absurd h1 hnc

/-- What was received can be written again. -/
theorem received_writable (cfg : Cfg) (m : Msg) (hm : New m) (ord : OrderOk cfg.ord) (hdr : cfg.headersOnly = false)
    (hhand : cfg.handler = false) (hmax : cfg.maxContent + 1 < 2 ^ 64) (bufs : List Bytes) (stream : Bytes)
    (hcut : Cuts bufs stream) (o : Outcome) (ho : outcome cfg (fresh cfg m) bufs = some o) (hy : o.result = .yes)
    (hv : Versioned (o.message.head cfg.isRequest)) (hnc : NotChunked o.message.headers)
    (hck : ShortCookies cfg.isRequest o.message.headers) :
    ∃ body, o.message.content = body.map some ∧ Writable cfg.isRequest o.message body := by
  obtain ⟨h, hs, data, tr, t, rfl, hkind, ⟨a, b, rfl, hh, hb⟩, hd⟩ :=
    message_sound cfg m hm.toBlank ord hdr hmax bufs stream hcut o ho hy
  have hhs := hd.complete.headers
  rw [hhs] at hnc hck
  obtain ⟨rfl, hbody⟩ := body_plain hb (notChunked_announces ord (notChunked_left hnc))
  rw [List.append_nil] at hnc hck
  rw [hkind, head_of_stored hd.complete.stored] at hv
  have hda := hd.data
  rw [hhand] at hda
  exact ⟨_, hda, writable_of hkind hhand hmax hd (head_ok hh hv) (outcome_keepsMsg ord (kept_new hm _) ho) hck hnc hbody⟩

/-- **C102, partial.** Whatever bytes were received: if the parser reports a complete message, whose headers do not speak of
    chunks, and which (if it is a request) has a version, then it can be sent on. -/
theorem received_passed_on_partial (cfg : Cfg) (m : Msg) (hm : New m) (ord : OrderOk cfg.ord) (hdr : cfg.headersOnly = false)
    (hhand : cfg.handler = false) (hmax : cfg.maxContent + 1 < 2 ^ 64) (bufs : List Bytes) (stream : Bytes)
    (hcut : Cuts bufs stream) (o : Outcome) (ho : outcome cfg (fresh cfg m) bufs = some o) (hy : o.result = .yes)
    (hv : Versioned (o.message.head cfg.isRequest)) (hnc : NotChunked o.message.headers)
    (hck : ShortCookies cfg.isRequest o.message.headers) :
    ∃ body, o.message.content = body.map some ∧ PassedOn cfg.isRequest o.message body := by
  obtain ⟨body, h1, h2⟩ := received_writable cfg m hm ord hdr hhand hmax bufs stream hcut o ho hy hv hnc hck
  exact ⟨body, h1, passedOn h2⟩

/-- **C102, partial: from the bytes.** A message of the grammar (C68) whose content does not exceed the maximum: it is received,
    and what is sent on has its first line, its headers and its content. -/
theorem message_passed_on_partial (cfg : Cfg) (m : Msg) (hm : New m) (h : Head) (w : Whole cfg m h) (hhand : cfg.handler = false)
    (hs : Dict) (data t rest : Bytes) (hg : Message (reading cfg m) h hs data [] t rest) (hv : Versioned h)
    (hnc : NotChunked hs) (hck : ShortCookies cfg.isRequest hs) (hfit : data.length ≤ cfg.maxContent)
    (bufs : List Bytes) (hcut : Cuts bufs (t ++ rest)) :
    ∃ o, outcome cfg (fresh cfg m) bufs = some o ∧ o.result = .yes ∧ o.unread = rest ∧ o.message.head cfg.isRequest = h ∧
      o.message.headers = hs ∧ o.message.content = data.map some ∧ PassedOn cfg.isRequest o.message data := by
  obtain ⟨o, ho, hd⟩ := message_accepted cfg m h w hs data [] t rest hg bufs hcut
  obtain ⟨a, b, rfl, hh, hb⟩ := hg
  obtain ⟨_, hbody⟩ := body_plain hb (notChunked_announces w.order hnc)
  have hda := hd.data
  rw [hhand] at hda
  have hw := writable_of w.kind hhand w.max hd (head_ok hh hv) (outcome_keepsMsg w.order (kept_new hm _) ho) hck hnc hbody
  rw [List.take_of_length_le hfit] at hw
  exact ⟨o, ho, hd.complete.result, hd.complete.unread, by rw [w.kind]; exact head_of_stored hd.complete.stored,
    by rw [hd.complete.headers, List.append_nil], hw.content, passedOn hw⟩

/-- **C102, partial: responses that end with the connection.** They are received, and sent on with their length. -/
theorem closed_passed_on_partial (cfg : Cfg) (m : Msg) (hm : New m) (h : Head) (w : Whole cfg m h) (hhand : cfg.handler = false)
    (hs : Dict) (hu : UntilClose (reading cfg m) h hs) (a body : Bytes) (hh : MessageHead h hs a body)
    (hnc : NotChunked hs) (hck : ShortCookies cfg.isRequest hs) (hfit : body.length ≤ cfg.maxContent)
    (bufs : List Bytes) (hcut : Cuts bufs (a ++ body)) :
    ∃ o, outcomeAtEof cfg (fresh cfg m) bufs = some (false, o) ∧ o.message.head cfg.isRequest = h ∧
      o.message.headers = hs ∧ o.message.content = body.map some ∧ PassedOn cfg.isRequest o.message body := by
  obtain ⟨_, o, ho, hd⟩ := until_close_accepted cfg m h w hs hu a body hh bufs hcut
  have hv : Versioned h := by
    have := hu.response
    cases h with
    | request => cases this
    | response => trivial
  have hw := writable_of (m := m) w.kind hhand w.max hd (head_ok hh hv) (outcomeAtEof_keepsMsg w.order (kept_new hm _) ho) hck hnc
    (fun hb => absurd hb hu.hasBody)
  rw [List.take_of_length_le hfit] at hw
  exact ⟨o, ho, by rw [w.kind]; exact head_of_stored hd.complete.stored,
    by rw [hd.complete.headers, List.append_nil], hw.content, passedOn hw⟩

/-- The cookies of a message without cookie headers: none, so that nothing is added to its headers. -/
theorem no_cookies (cfg : Cfg) (m : Msg) (hm : New m) (ord : OrderOk cfg.ord) (bufs : List Bytes) (o : Outcome)
    (ho : outcome cfg (fresh cfg m) bufs = some o) (h : matching o.message.headers (cookieName cfg.isRequest) = []) :
    o.message.cookies = [] := by
  rw [List.eq_nil_iff_forall_not_mem]
  intro c hc
  obtain ⟨e, he, hn, _⟩ := (outcome_keepsMsg ord (kept_new hm _) ho).cookies c hc
  have : e ∈ matching o.message.headers (cookieName cfg.isRequest) := List.mem_filter.2 ⟨he, hn⟩
  rw [h] at this
  exact nomatch this

/-! ### Any number of hops -/

/-- `m` is sent (with any order of the tables, over a connection that is kept alive or not), something follows it, and a next
    receiver, with a message object that it may have used before, has `r` after reading the bytes in some pieces. Nothing is
    said about how the reading ended. -/
inductive Hop (isRequest : Bool) (n : Nat) (m : Msg) : Msg → Prop
  | mk {next : Cfg} {t : TableOrder} {ka : Bool} {used m' : Msg} {wire tail : Bytes} {bufs : List Bytes} {o : Outcome} :
      Next isRequest n next → next.maxContent + 1 < 2 ^ 64 → t.Ok → m.transmit t isRequest ka false = some (m', wire) →
      Cuts bufs (wire ++ tail) → outcome next (fresh next (used.clear isRequest)) bufs = some o → Hop isRequest n m o.message

/-- `r` is what is left of `m` after some hops. -/
inductive Hops (isRequest : Bool) (n : Nat) (m : Msg) : Msg → Prop
  | none : Hops isRequest n m m
  | more {r r' : Msg} : Hops isRequest n m r → Hop isRequest n r r' → Hops isRequest n m r'

theorem new_clear (r : Bool) (m : Msg) : New (m.clear r) := by
  cases r <;> exact ⟨⟨rfl, rfl, rfl, rfl⟩, rfl, rfl⟩

theorem versioned_of_ok {h : Head} (hk : h.Ok) : Versioned h := by
  cases h with
  | request => exact hk.majorOk.1
  | response => trivial

/-- One hop, for a message without cookies. -/
theorem hop_writable {r : Bool} {m : Msg} {body : Bytes} (hw : Writable r m body) (hc : m.cookies = [])
    (hn : matching m.headers (cookieName r) = []) {m1 : Msg} (hop : Hop r body.length m m1) :
    Writable r m1 body ∧ m1.cookies = [] ∧ matching m1.headers (cookieName r) = [] ∧ m1.head r = m.head r ∧
      ∃ ka, SameMessage r ka m body m1 := by
  obtain ⟨⟨rfl, h2, h3, h4, h5⟩, hmax, ht, htr, hcut, ho⟩ := hop
  rename_i next t ka used m' wire tail bufs o
  obtain ⟨m'', wire', e1, e2⟩ := send_receive_partial next h2 h3 h4 t ht ka m used body hw h5 tail
  obtain ⟨rfl, rfl⟩ : m' = m'' ∧ wire = wire' := by
    rw [htr] at e1
    simpa using e1
  obtain ⟨o', ho', hy, _, _, hsame⟩ := e2 bufs hcut
  obtain rfl : o = o' := by rw [ho] at ho'; simpa using ho'
  have hhead : o.message.head next.isRequest = m.head next.isRequest := by
    have := head_of_stored hsame.firstLine
    rwa [head_isRequest] at this
  have hnames : matching o.message.headers (cookieName next.isRequest) = [] := by
    have := hsame.cookies
    change (matching o.message.headers (cookieName next.isRequest)).Perm (matching m.headers (cookieName next.isRequest) ++ _) at this
    rw [hn, hc] at this
    exact List.perm_nil.1 this
  have hnc : NotChunked o.message.headers := by
    intro e he
    refine hw.notChunked e ((hsame.others (b! "Transfer-Encoding") (by decide +kernel) (by decide +kernel) ?_).mem_iff.1 he)
    cases next.isRequest <;> decide +kernel
  obtain ⟨body', hb, hw'⟩ := received_writable next (used.clear next.isRequest) (new_clear _ _) h2 h3 h4 hmax bufs _ hcut o ho hy
    (by rw [hhead]; exact versioned_of_ok hw.headOk) hnc (by unfold ShortCookies; rw [hnames]; simp)
  obtain rfl : body = body' := by
    rw [hsame.content] at hb
    exact List.map_inj_right (fun _ _ e => Option.some.inj e) |>.1 hb
  exact ⟨hw', no_cookies next _ (new_clear _ _) h2 bufs o ho hnames, hnames, hhead, ka, hsame⟩

/-- **C102, partial: any number of hops.** A message without cookies that can be sent on (`received_writable` says which those
    are) arrives after any number of hops, with the same first line, the same content, and the same entries under every name
    except `Connection` and `Content-Length`; and it can be sent on again, with the same success. -/
theorem hops_same_partial {r : Bool} {m : Msg} {body : Bytes} (hw : Writable r m body) (hc : m.cookies = [])
    (hn : matching m.headers (cookieName r) = []) {m1 : Msg} (h : Hops r body.length m m1) :
    m1.head r = m.head r ∧ m1.content = body.map some ∧ m1.cookies = [] ∧
      (∀ k, iequals k (b! "Connection") = false → iequals k (b! "Content-Length") = false →
        (matching m1.headers k).Perm (matching m.headers k)) ∧ PassedOn r m1 body := by
  suffices hs : Writable r m1 body ∧ m1.cookies = [] ∧ matching m1.headers (cookieName r) = [] ∧ m1.head r = m.head r ∧
      (∀ k, iequals k (b! "Connection") = false → iequals k (b! "Content-Length") = false →
        (matching m1.headers k).Perm (matching m.headers k)) from
    ⟨hs.2.2.2.1, hs.1.content, hs.2.1, hs.2.2.2.2, passedOn hs.1⟩
  induction h with
  | none => exact ⟨hw, hc, hn, rfl, fun _ _ _ => List.Perm.refl _⟩
  | more _ h2 ih =>
    obtain ⟨i1, i2, i3, i4, i5⟩ := ih
    obtain ⟨j1, j2, j3, j4, ka, j5⟩ := hop_writable i1 i2 i3 h2
    refine ⟨j1, j2, j3, j4.trans i4, fun k h1 h2 => ?_⟩
    cases hk : iequals k (cookieName r) with
    | false => exact (j5.others k h1 h2 hk).trans (i5 k h1 h2)
    | true =>
      rw [Verif.Props.Dict.matching_congr hk, j3, ← i3, ← Verif.Props.Dict.matching_congr hk]
      exact i5 k h1 h2

/-! ### Examples, and what is not passed on -/

/-- Receive, send on (on a connection that is kept alive), receive: the second message and what is left of the stream. -/
def hop (cfg : Cfg) (m : Msg) (stream : Bytes) (next : Cfg) : Option Outcome :=
  (outcome cfg (fresh cfg m) [stream]).bind fun o => (o.message.transmit {} cfg.isRequest true false).bind fun x =>
    outcome next (fresh next {}) [x.2]

def respCfg : Cfg := { isRequest := false }

/-- A POST with a body, and a request after it. -/
def post : Bytes := b! "POST /a?x=1 HTTP/1.1\nhost: h\nContent-Length: +2\n\nhiGET / HTTP/1.1\r\n\r\n"

/-- It is sent on, in a uniform notation. -/
example : ((outcome reqCfg (fresh reqCfg {}) [post]).bind fun o => o.message.transmit {} true true false).map (·.2) =
    some (b! "POST /a?x=1 HTTP/1.1\r\nhost: h\r\nContent-Length: 2\r\nConnection: Keep-Alive\r\n\r\nhi") := by decide +kernel

example : (hop reqCfg {} post reqCfg).map (fun o => (o.result, o.unread, o.message.content, o.message.resource)) =
    some (.yes, [], (b! "hi").map some, b! "/a") := by decide +kernel

/-- It meets the hypotheses of `received_passed_on_partial`. -/
example : New {} ∧ Cuts [post] post ∧ ∃ o, outcome reqCfg (fresh reqCfg {}) [post] = some o ∧ o.result = .yes ∧
    Versioned (o.message.head true) ∧ NotChunked o.message.headers ∧ ShortCookies true o.message.headers := by
  refine ⟨⟨⟨rfl, rfl, rfl, rfl⟩, rfl, rfl⟩, ⟨by simp, by decide +kernel⟩, ?_⟩
  obtain ⟨o, ho⟩ : ∃ o, outcome reqCfg (fresh reqCfg {}) [post] = some o :=
    Option.isSome_iff_exists.1 (by decide +kernel)
  have e : (outcome reqCfg (fresh reqCfg {}) [post]).map (fun o => (o.result, o.message.headers, o.message.verMajor)) =
      some (.yes, [(b! "host", b! "h"), (b! "Content-Length", b! "+2")], 1) := by decide +kernel
  rw [ho] at e
  simp only [Option.map_some, Option.some.injEq, Prod.mk.injEq] at e
  refine ⟨o, ho, e.1, ?_, ?_, ?_⟩
  · change 1 ≤ o.message.verMajor
    rw [e.2.2]; decide
  · rw [e.2.1, NotChunked, show matching [(b! "host", b! "h"), (b! "Content-Length", b! "+2")] (b! "Transfer-Encoding") = []
      by decide +kernel]
    simp
  · rw [e.2.1, ShortCookies, show matching [(b! "host", b! "h"), (b! "Content-Length", b! "+2")] (cookieName true) = []
      by decide +kernel]
    simp

/-- A message that can go through any number of hops: there is always a next one, and it ends well. -/
example : ∀ r body, Writable true r body → r.cookies = [] → matching r.headers (cookieName true) = [] → body.length ≤ 1000 →
    ∃ r', Hop true body.length r r' := by
  intro r body hw _ _ hl
  obtain ⟨m', wire, h1, h2⟩ := passedOn hw { reqCfg with maxContent := 1000 } ⟨rfl, fun _ => List.Perm.refl _, rfl, rfl, hl⟩ {} (fun _ => List.Perm.refl _) true {} [1]
  have hc : Cuts [wire ++ [1]] (wire ++ [1]) := ⟨by simp, by simp⟩
  obtain ⟨o, ho, _⟩ := h2 _ hc
  exact ⟨_, .mk ⟨rfl, fun _ => List.Perm.refl _, rfl, rfl, hl⟩ (show 1000 + 1 < 2 ^ 64 by decide) (fun _ => List.Perm.refl _) h1 hc ho⟩

/-- **Finding.** A message that was received in chunks is announced in chunks and sent without them: the next receiver
    refuses it. -/
theorem chunked_not_passed_on :
    (outcome reqCfg (fresh reqCfg {}) [b! "POST / HTTP/1.1\r\nTransfer-Encoding: chunked\r\n\r\n2\r\nhi\r\n0\r\n\r\n"]).map (·.result) =
      some .yes ∧
    (hop reqCfg {} (b! "POST / HTTP/1.1\r\nTransfer-Encoding: chunked\r\n\r\n2\r\nhi\r\n0\r\n\r\n") reqCfg).map (·.result) =
      some .no := by decide +kernel

/-- **Finding.** Of two `Transfer-Encoding` headers the receiver takes one, the next receiver may take the other. -/
theorem second_coding_not_passed_on :
    (hop reqCfg {} (b! "POST / HTTP/1.1\r\nTransfer-Encoding: x\r\nTransfer-Encoding: chunked\r\nContent-Length: 2\r\n\r\nhi")
      { reqCfg with ord := List.reverse }).map (·.result) = some .no := by decide +kernel

/-- **Finding.** A request without version is sent on as one of version 0.0; the next receiver takes the first line for the
    whole request, and the headers and the content for what follows it. -/
theorem old_request_not_passed_on :
    (outcome reqCfg (fresh reqCfg {}) [b! "POST /\nContent-Length: 2\n\nhi"]).map (fun o => (o.result, o.message.content)) =
      some (.yes, (b! "hi").map some) ∧
    (hop reqCfg {} (b! "POST /\nContent-Length: 2\n\nhi") reqCfg).map (fun o => (o.result, o.message.content, o.unread)) =
      some (.yes, [], b! "Content-Length: 2\r\nConnection: Keep-Alive\r\n\r\nhi") := by decide +kernel

/-- **Finding.** Every cookie is sent on twice: in the header it came in, and in one generated for it. So their number doubles
    at every hop. -/
theorem cookies_doubled :
    (outcome reqCfg (fresh reqCfg {}) [b! "GET / HTTP/1.1\r\nCookie: a=1\r\n\r\n"]).map (fun o => o.message.cookies.length) = some 1 ∧
    (hop reqCfg {} (b! "GET / HTTP/1.1\r\nCookie: a=1\r\n\r\n") reqCfg).map (fun o => o.message.cookies.length) = some 2 ∧
    ((hop reqCfg {} (b! "GET / HTTP/1.1\r\nCookie: a=1\r\n\r\n") reqCfg).bind fun o =>
      (o.message.transmit {} true true false).bind fun x => hop reqCfg {} x.2 reqCfg).map (fun o => o.message.cookies.length) =
      some 8 := by decide +kernel

/-- **Finding.** The answer to a HEAD request loses the length it announces. -/
theorem head_length_lost :
    (outcome respCfg (fresh respCfg { requestMethod := b! "HEAD" }) [b! "HTTP/1.1 200 OK\r\nContent-Length: 10\r\n\r\n"]).map
      (fun o => (o.result, o.message.headers)) = some (.yes, [(b! "Content-Length", b! "10")]) ∧
    (hop respCfg { requestMethod := b! "HEAD" } (b! "HTTP/1.1 200 OK\r\nContent-Length: 10\r\n\r\n") respCfg).map
      (fun o => o.message.headers.values (b! "Content-Length")) = some [b! "0"] := by decide +kernel

/-- **Finding.** A content above the maximum is sent on cut off, as if it were complete. -/
theorem content_cut :
    (hop { reqCfg with maxContent := 3 } {} (b! "POST / HTTP/1.1\r\nContent-Length: 5\r\n\r\nhello") reqCfg).map
      (fun o => (o.result, o.message.content, o.message.headers.values (b! "Content-Length"))) =
      some (.yes, (b! "hel").map some, [b! "3"]) := by decide +kernel

/-- A response that ends with the connection gets a length. -/
example : ((outcomeAtEof respCfg (fresh respCfg {}) [b! "HTTP/1.0 200 OK\r\n\r\nall"]).bind fun o =>
    o.2.message.transmit {} false true false).map (·.2) =
    some (b! "HTTP/1.0 200 OK\r\nConnection: Keep-Alive\r\nContent-Length: 3\r\n\r\nall") := by decide +kernel

end Verif.Props.Forward
