import Verif.Model.MessageIo
import Verif.Spec.HttpWire
import Verif.Lemmas.Digits
import Verif.Props.Dict
/-
Lemmas about the bytes of a message head.
-/
namespace Verif
open Verif.Http Verif.Props.Dict

/-- The iteration order of the hash table is an order of its entries. -/
def TableOrder.Ok (t : TableOrder) : Prop := ∀ d, (t.iter d).Perm d

/-- The first line of a message. -/
def Msg.head (isRequest : Bool) (m : Msg) : Head :=
  if isRequest then .request m.method m.resource m.queryString m.verMajor m.verMinor
  else .response m.verMajor m.verMinor m.statusCode m.statusMessage

namespace Msg

theorem firstLine_eq (isRequest : Bool) (m : Msg) : m.firstLine isRequest ++ b! "\r\n" = (m.head isRequest).line := by
  cases isRequest
  · simp [firstLine, head, Head.line, statusLine, versionString, versionText, CRLF]
  · simp only [firstLine, head, Head.line, requestLine, versionString, versionText, CRLF, if_true]
    split <;> simp

theorem headerBytes_eq (t : TableOrder) (m : Msg) : m.headerBytes t = headerBlock (t.iter m.headers) := rfl

/-- The fields that the preparation of a message does not touch. -/
def SameButHeaders (m m' : Msg) : Prop := ∃ hs, m' = { m with headers := hs }

theorem SameButHeaders.refl (m : Msg) : SameButHeaders m m := ⟨m.headers, rfl⟩
theorem SameButHeaders.trans {a b c : Msg} (h : SameButHeaders a b) (h' : SameButHeaders b c) : SameButHeaders a c := by
  obtain ⟨x, rfl⟩ := h; obtain ⟨y, rfl⟩ := h'; exact ⟨y, rfl⟩

theorem appendCookieHeaders_eq (t : TableOrder) (isRequest : Bool) (m : Msg) :
    m.appendCookieHeaders t isRequest =
      { m with headers := m.headers ++ (t.iter m.cookies).map (cookieHeader isRequest) } := by
  unfold appendCookieHeaders
  generalize t.iter m.cookies = l
  induction l generalizing m with
  | nil => simp
  | cons c r ih => rw [List.foldl_cons, ih]; simp [Dict.insert]

theorem prepareHeaders_same (t : TableOrder) (ka uc : Bool) (m : Msg) : SameButHeaders m (m.prepareHeaders t ka uc) := by
  unfold prepareHeaders
  dsimp only
  split
  · split
    · exact ⟨_, rfl⟩
    · exact ⟨_, rfl⟩
  · split
    · exact ⟨_, rfl⟩
    · exact ⟨_, rfl⟩

theorem head_same {isRequest : Bool} {m m' : Msg} (h : SameButHeaders m m') : m'.head isRequest = m.head isRequest := by
  obtain ⟨x, rfl⟩ := h; rfl

/-- The headers that are sent, as a set of entries. -/
def sentHeaders (t : TableOrder) (isRequest ka uc : Bool) (m : Msg) : Dict :=
  (m.prepareHeaders t ka uc).headers ++ (t.iter m.cookies).map (cookieHeader isRequest)

/-- A prepared message is a message head on the wire. -/
theorem prepareBuffers_eq (t : TableOrder) (isRequest ka uc : Bool) (m : Msg) :
    m.prepareBuffers t isRequest ka uc = ({ m with headers := m.sentHeaders t isRequest ka uc },
      wireHead (m.head isRequest) (t.iter (m.sentHeaders t isRequest ka uc))) := by
  unfold prepareBuffers
  dsimp only
  rw [appendCookieHeaders_eq, firstLine_eq, headerBytes_eq, head_same (prepareHeaders_same t ka uc m)]
  have hc : (m.prepareHeaders t ka uc).cookies = m.cookies := by
    obtain ⟨x, hx⟩ := prepareHeaders_same t ka uc m; rw [hx]
  have hs : (m.prepareHeaders t ka uc) = { m with headers := (m.prepareHeaders t ka uc).headers } := by
    obtain ⟨x, hx⟩ := prepareHeaders_same t ka uc m; rw [hx]
  unfold sentHeaders wireHead
  rw [hc]
  rw [hs]

end Msg

theorem matching_append (a b : Dict) (k : Bytes) : matching (a ++ b) k = matching a k ++ matching b k :=
  List.filter_append ..

theorem matching_perm {a b : Dict} (h : a.Perm b) (k : Bytes) : (matching a k).Perm (matching b k) := h.filter _

/-- What `change` can put into the dictionary. -/
theorem mem_change {pick : Nat} {d : Dict} {k v : Bytes} {e : Bytes × Bytes} (he : e ∈ d.change pick k v) :
    e ∈ d ∨ (e.2 = v ∧ (e.1 = k ∨ ∃ w, (e.1, w) ∈ d)) := by
  obtain ⟨name, hn, hm, h1, h2, ho⟩ := change_exact pick d k v
  cases hk : iequals e.1 k with
  | true =>
    have : e ∈ matching (d.change pick k v) k := List.mem_filter.2 ⟨he, hk⟩
    rw [hm, List.mem_singleton] at this
    subst this
    refine .inr ⟨rfl, ?_⟩
    by_cases hc : matching d k = []
    · exact .inl (h1 hc)
    · exact .inr (h2 hc)
  | false =>
    have : e ∈ others (d.change pick k v) k := List.mem_filter.2 ⟨he, by simp [hk]⟩
    rw [ho] at this
    exact .inl (List.mem_filter.1 this).1

theorem digitsBE_length (b : Nat) (hb : 2 ≤ b) : ∀ k f n, 1 ≤ k → n < b ^ k → (digitsBE b f n).length ≤ k := by
  intro k
  induction k with
  | zero => intro f n h; omega
  | succ k ih =>
    intro f n _ hn
    cases f with
    | zero => simp [digitsBE]
    | succ f =>
      unfold digitsBE
      split
      · simp
      · rename_i h
        rw [List.length_append, List.length_singleton]
        have : 1 ≤ k := by
          rcases Nat.eq_zero_or_pos k with rfl | hk
          · simp at hn; omega
          · exact hk
        have := ih f (n / b) this (by
          rw [Nat.div_lt_iff_lt_mul (by omega)]; rwa [← Nat.pow_succ])
        omega

theorem toDec_length {n : Nat} (h : n < 2 ^ 64) : (toDec n).length ≤ 20 := by
  unfold toDec
  rw [List.length_map]
  exact digitsBE_length 10 (by omega) 20 _ _ (by omega) (by omega)

/-- A digit is not a control character. -/
theorem isDigit_valueChar (c : UInt8) : isDigit c = true → valueChar c := by
  unfold valueChar; revert c; decide +kernel

theorem headerOk_length (name : Bytes) (hn : Token name) {n : Nat} (h : n < 2 ^ 64) : HeaderOk (name, toDec n) where
  name := hn
  value := fun c hc => isDigit_valueChar c (toDec_isDigit n c hc)
  size := by have := toDec_length h; dsimp only; omega

theorem token_connection : Token (b! "Connection") := ⟨by decide +kernel, by decide +kernel, by decide +kernel⟩
theorem token_contentLength : Token (b! "Content-Length") := ⟨by decide +kernel, by decide +kernel, by decide +kernel⟩
theorem token_transferEncoding : Token (b! "Transfer-Encoding") :=
  ⟨by decide +kernel, by decide +kernel, by decide +kernel⟩

/-- Changing a header keeps the headers well-formed. -/
theorem headersOk_change {pick : Nat} {d : Dict} {k v : Bytes} (hd : ∀ e ∈ d, HeaderOk e)
    (hk : ∀ name, Token name → HeaderOk (name, v)) (ht : Token k) : ∀ e ∈ d.change pick k v, HeaderOk e := by
  intro e he
  rcases mem_change he with h | ⟨h1, h2⟩
  · exact hd e h
  · obtain ⟨e1, e2⟩ := e
    dsimp only at h1 h2
    subst h1
    rcases h2 with rfl | ⟨w, hw⟩
    · exact hk _ ht
    · exact hk _ (hd _ hw).name

/-- The headers that are sent are well-formed. -/
theorem sentHeaders_ok (t : TableOrder) (ht : t.Ok) (isRequest ka uc : Bool) (m : Msg) (hh : ∀ e ∈ m.headers, HeaderOk e)
    (hc : ∀ c ∈ m.cookies, HeaderOk (Msg.cookieHeader isRequest c)) (hl : m.contentLength < 2 ^ 64) :
    ∀ e ∈ m.sentHeaders t isRequest ka uc, HeaderOk e := by
  have hconn : ∀ (ka : Bool) name, Token name → HeaderOk (name, Msg.connectionValue ka) := by
    intro ka name hn
    cases ka
    · exact ⟨hn, by dsimp only; unfold valueChar; decide +kernel, by dsimp only; decide +kernel⟩
    · exact ⟨hn, by dsimp only; unfold valueChar; decide +kernel, by dsimp only; decide +kernel⟩
  intro e he
  rcases List.mem_append.1 he with he | he
  · unfold Msg.prepareHeaders at he
    dsimp only at he
    have h1 : ∀ e ∈ (m.changeHeader t (b! "Connection") (Msg.connectionValue ka)).headers,
        HeaderOk e := headersOk_change hh (hconn ka) token_connection
    split at he
    · split at he
      · exact headersOk_change h1 (fun n hn => ⟨hn, by dsimp only; unfold valueChar; decide +kernel, by dsimp only; decide +kernel⟩)
          token_transferEncoding e he
      · exact h1 e he
    · split at he
      · exact h1 e he
      · exact headersOk_change h1 (fun n hn => headerOk_length n hn hl) token_contentLength e he
  · obtain ⟨c, hcm, rfl⟩ := List.mem_map.1 he
    exact hc c ((ht _).subset hcm)

/-- Names that preparation of a message does not use. -/
def plainName (k : Bytes) : Prop :=
  iequals k (b! "Connection") = false ∧ iequals k (b! "Content-Length") = false ∧
  iequals k (b! "Transfer-Encoding") = false

theorem matching_change_same (pick : Nat) (d : Dict) (k v : Bytes) :
    ∃ name, iequals name k = true ∧ matching (d.change pick k v) k = [(name, v)] := by
  obtain ⟨name, h1, h2, _⟩ := change_exact pick d k v
  exact ⟨name, h1, h2⟩

theorem matching_change_other (pick : Nat) (d : Dict) (k v k' : Bytes) (h : iequals k' k = false) :
    matching (d.change pick k v) k' = matching d k' := by
  obtain ⟨name, -, -, -, -, ho⟩ := change_exact pick d k v
  exact matching_of_others h ho

theorem matching_cookies (isRequest : Bool) (l : Dict) (k : Bytes)
    (h : iequals (if isRequest then b! "Cookie" else b! "Set-Cookie") k = false) :
    matching (l.map (Msg.cookieHeader isRequest)) k = [] := by
  unfold matching
  rw [List.filter_eq_nil_iff]
  intro e he
  obtain ⟨c, -, rfl⟩ := List.mem_map.1 he
  unfold Msg.cookieHeader
  cases isRequest <;> simp_all

theorem matching_cookies_all (isRequest : Bool) (l : Dict) (k : Bytes)
    (h : iequals (if isRequest then b! "Cookie" else b! "Set-Cookie") k = true) :
    matching (l.map (Msg.cookieHeader isRequest)) k = l.map (Msg.cookieHeader isRequest) := by
  unfold matching
  rw [List.filter_eq_self]
  intro e he
  obtain ⟨c, -, rfl⟩ := List.mem_map.1 he
  unfold Msg.cookieHeader
  cases isRequest <;> simp_all

/-- Headers under a name that is not generated are sent as they are. -/
theorem matching_sent_plain (t : TableOrder) (isRequest ka uc : Bool) (m : Msg) (k : Bytes) (hk : plainName k) :
    matching (m.sentHeaders t isRequest ka uc) k =
      matching m.headers k ++ matching ((t.iter m.cookies).map (Msg.cookieHeader isRequest)) k := by
  unfold Msg.sentHeaders
  rw [matching_append]
  congr 1
  unfold Msg.prepareHeaders Msg.changeHeader
  dsimp only
  split
  · split
    · exact (matching_change_other _ _ _ _ _ hk.2.2).trans (matching_change_other _ _ _ _ _ hk.1)
    · exact matching_change_other _ _ _ _ _ hk.1
  · split
    · exact matching_change_other _ _ _ _ _ hk.1
    · exact (matching_change_other _ _ _ _ _ hk.2.1).trans (matching_change_other _ _ _ _ _ hk.1)

theorem cookie_not (isRequest : Bool) (k : Bytes) (hk : k = b! "Connection" ∨ k = b! "Content-Length" ∨ k = b! "Transfer-Encoding") :
    iequals (if isRequest then b! "Cookie" else b! "Set-Cookie") k = false := by
  rcases hk with rfl | rfl | rfl <;> cases isRequest <;> decide +kernel

theorem matching_sent_connection (t : TableOrder) (isRequest ka uc : Bool) (m : Msg) :
    ∃ name, matching (m.sentHeaders t isRequest ka uc) (b! "Connection") =
      [(name, Msg.connectionValue ka)] := by
  obtain ⟨name, -, hm⟩ := matching_change_same (t.pick m.headers (b! "Connection")) m.headers (b! "Connection")
    (Msg.connectionValue ka)
  refine ⟨name, ?_⟩
  unfold Msg.sentHeaders
  rw [matching_append, matching_cookies _ _ _ (cookie_not _ _ (.inl rfl)), List.append_nil]
  unfold Msg.prepareHeaders Msg.changeHeader
  dsimp only
  split
  · split
    · exact (matching_change_other _ _ _ _ _ (by decide +kernel)).trans hm
    · exact hm
  · split
    · exact hm
    · exact (matching_change_other _ _ _ _ _ (by decide +kernel)).trans hm

theorem matching_sent_length (t : TableOrder) (isRequest ka : Bool) (m : Msg) (hd : m.doNotSendContentLength = false) :
    ∃ name, matching (m.sentHeaders t isRequest ka false) (b! "Content-Length") = [(name, toDec m.contentLength)] := by
  unfold Msg.sentHeaders
  rw [matching_append, matching_cookies _ _ _ (cookie_not _ _ (.inr (.inl rfl))), List.append_nil]
  unfold Msg.prepareHeaders Msg.changeHeader
  dsimp only
  rw [if_neg (by simp), if_neg (by simp [hd])]
  dsimp only
  obtain ⟨name, -, hm⟩ := matching_change_same _ _ (b! "Content-Length") (toDec m.contentLength)
  exact ⟨name, hm⟩

theorem matching_sent_te (t : TableOrder) (isRequest ka : Bool) (m : Msg) :
    matching (m.sentHeaders t isRequest ka false) (b! "Transfer-Encoding") = matching m.headers (b! "Transfer-Encoding") := by
  unfold Msg.sentHeaders
  rw [matching_append, matching_cookies _ _ _ (cookie_not _ _ (.inr (.inr rfl))), List.append_nil]
  unfold Msg.prepareHeaders Msg.changeHeader
  dsimp only
  rw [if_neg (by simp)]
  split
  · exact matching_change_other _ _ _ _ _ (by decide +kernel)
  · exact (matching_change_other _ _ _ _ _ (by decide +kernel)).trans (matching_change_other _ _ _ _ _ (by decide +kernel))

theorem matching_sent_te_chunked (t : TableOrder) (isRequest ka : Bool) (m : Msg) (hc : m.chunksSupported = true) :
    ∃ name, matching (m.sentHeaders t isRequest ka true) (b! "Transfer-Encoding") = [(name, b! "chunked")] := by
  unfold Msg.sentHeaders
  rw [matching_append, matching_cookies _ _ _ (cookie_not _ _ (.inr (.inr rfl))), List.append_nil]
  unfold Msg.prepareHeaders Msg.changeHeader
  dsimp only
  rw [if_pos rfl, if_pos (by exact hc)]
  obtain ⟨name, -, hm⟩ := matching_change_same _ _ (b! "Transfer-Encoding") (b! "chunked")
  exact ⟨name, hm⟩

/-- If only one entry matches, `find?` finds its value whatever the order. -/
theorem find?_single {ord : Dict.Order} (ho : Http.OrderOk ord) {d : Dict} {k name v : Bytes} (h : matching d k = [(name, v)]) :
    d.find? ord k = some v := by
  unfold Dict.find? Dict.values
  rw [show List.filter (fun e => iequals e.1 k) d = [(name, v)] from h]
  have := ho [v]
  rw [List.perm_singleton] at this
  simp [this]

theorem find?_mem {ord : Dict.Order} (ho : Http.OrderOk ord) {d : Dict} {k v : Bytes} (h : d.find? ord k = some v) :
    ∃ name, (name, v) ∈ matching d k := by
  unfold Dict.find? Dict.values at h
  have hv : v ∈ ord ((matching d k).map (·.2)) := List.mem_of_mem_head? h
  have := (ho _).subset hv
  obtain ⟨⟨n, w⟩, he, rfl⟩ := List.mem_map.1 this
  exact ⟨n, he⟩

theorem matching_iter {t : TableOrder} (ht : t.Ok) {d : Dict} {k : Bytes} {e : Bytes × Bytes} (h : matching d k = [e]) :
    matching (t.iter d) k = [e] := by
  have := matching_perm (ht d) k
  rw [h, List.perm_singleton] at this
  exact this

end Verif
