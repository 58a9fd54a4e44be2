import Verif.Spec.HttpRfc
import Verif.Props.HttpFraming
/-
C69: messages end where RFC 7230 says.
-/
namespace Verif.Props.HttpRfc
open Verif.Http Verif.Http.Text Verif.Http.Rfc Verif.Props.HttpSegmentation Verif.Props.HttpBody Verif.Props.HttpFraming

theorem find_one {ord : Dict.Order} (ho : OrderOk ord) {hs : Dict} {k : Bytes} (h : (hs.values k).length ≤ 1) :
    hs.find? ord k = (hs.values k).head? := by
  unfold Dict.find?
  match hv : hs.values k, h with
  | [], _ =>
    have : ord [] = [] := (ho []).eq_nil
    rw [this]
  | [v], _ =>
    have : ord [v] = [v] := List.perm_singleton.mp (ho [v])
    rw [this]
  | _ :: _ :: _, h => simp at h

theorem takeWhile_suffix (v : Bytes) : ∃ a, v = a ++ (v.reverse.takeWhile (· ≠ c! ",")).reverse := by
  refine ⟨(v.reverse.dropWhile (· ≠ c! ",")).reverse, ?_⟩
  have := List.takeWhile_append_dropWhile (p := fun x : UInt8 => decide (x ≠ c! ",")) (l := v.reverse)
  have := congrArg List.reverse this
  rw [List.reverse_append, List.reverse_reverse] at this
  exact this.symm

/-- A value whose last coding is `chunked` contains the word. -/
theorem mentions_of_last {v : Bytes} (h : lastCoding v = b! "CHUNKED") : ∃ a b, v.map toUpper = a ++ b! "CHUNKED" ++ b := by
  obtain ⟨a, ha⟩ := takeWhile_suffix v
  obtain ⟨sp, sp', hs, _⟩ := trim_split (v.reverse.takeWhile (· ≠ c! ",")).reverse
  rw [hs] at ha
  refine ⟨a.map toUpper ++ sp.map toUpper, sp'.map toUpper, ?_⟩
  rw [← h]
  conv_lhs => rw [ha]
  simp [lastCoding]

theorem lengthValue_sound {v : Bytes} {n : Nat} (h : lengthValue v = some n) (hn : n < 2 ^ 64) : LengthValue n v := by
  unfold Rfc.lengthValue at h
  split at h
  · rename_i hc
    obtain ⟨sp, sp', hv, hsp⟩ := trim_split v
    refine ⟨sp, [], trim v, sp', hv, hsp, hc.1, by simpa using hc.2, ?_, .inl ⟨.inl rfl, (Option.some.inj h).symm⟩⟩
    rw [Option.some.inj h]; exact hn
  · exact nomatch h

theorem noBody_iff {rm : Bytes} {h : Head} (h205 : ∀ major minor text, h ≠ .response major minor 205 text)
    (hc : rm ≠ b! "CONNECT") : noBody rm h = true ↔ h.Bodyless rm := by
  cases h with
  | request => simp [noBody, Head.Bodyless]
  | response major minor code text =>
    have : code ≠ 205 := by rintro rfl; exact h205 _ _ _ rfl
    simp only [noBody, Head.Bodyless, Bool.or_eq_true, Bool.and_eq_true, decide_eq_true_eq, beq_iff_eq]
    constructor
    · rintro ((((h | h) | h) | h) | ⟨⟨h, _⟩, _⟩)
      · exact .inl h
      · exact .inr (.inl h)
      · exact .inr (.inr (.inl h))
      · exact .inr (.inr (.inr (.inr h)))
      · exact absurd h hc
    · rintro (h | h | h | h | h)
      · exact .inl (.inl (.inl (.inl h)))
      · exact .inl (.inl (.inl (.inr h)))
      · exact .inl (.inl (.inr h))
      · exact absurd h this
      · exact .inl (.inr h)

/-- **C69, partial**: for heads about whose framing there is no doubt the body is the one of RFC 7230. -/
theorem follows_rfc_partial (r : Reading) (ho : OrderOk r.ord) (h : Head) (hs : Dict) (hp : Plain r.rm h hs)
    (data : Bytes) (tr : Dict) (b rest : Bytes) :
    Body r h hs data tr b rest ↔ Fits r h data tr b rest (framing r.rm h hs) := by
  have hbl := noBody_iff hp.not205 hp.notConnect
  have hte := find_one ho hp.te
  have hcl := find_one ho hp.cl
  have hte1 := hp.te
  have hcl1 := hp.cl
  have hnum := hp.number
  have hchk := hp.chunked
  have hnote := hp.noTe
  unfold framing
  by_cases hb : noBody r.rm h = true
  · rw [if_pos hb]
    have hc : ¬ AnnouncesChunks r.ord hs := by
      rintro ⟨v, hv, _⟩
      rw [hte, hnote hb] at hv
      exact nomatch hv
    constructor
    · intro h1
      cases h1 with
      | none => exact ⟨rfl, rfl, rfl⟩
      | length _ h2 => exact absurd (hbl.mp hb) h2
      | chunks h2 => exact absurd h2 hc
    · rintro ⟨rfl, rfl, rfl⟩
      exact .none hc (.inl (hbl.mp hb))
  · rw [if_neg hb]
    have hb' : ¬ h.Bodyless r.rm := fun h1 => hb (hbl.mpr h1)
    match hv : hs.values (b! "Transfer-Encoding"), hte1 with
    | _ :: _ :: _, h1 => simp at h1
    | [v], _ =>
      rw [hv] at hte hchk
      have hlast := hchk v (by simp)
      have hc : AnnouncesChunks r.ord hs := ⟨v, by rw [hte]; rfl, mentions_of_last hlast⟩
      simp only [List.getLast?_singleton, hlast, if_true]
      constructor
      · intro h1
        cases h1 with
        | none h2 => exact absurd hc h2
        | length h2 => exact absurd hc h2
        | chunks _ h2 h3 => exact ⟨_, h2, rfl, h3⟩
      · rintro ⟨ds, h1, rfl, h2⟩
        exact .chunks hc h1 h2
    | [], _ =>
      rw [hv] at hte
      have hc : ¬ AnnouncesChunks r.ord hs := by
        rintro ⟨v, h1, _⟩
        rw [hte] at h1
        exact nomatch h1
      simp only [List.getLast?_nil]
      match hw : hs.values (b! "Content-Length"), hcl1 with
      | _ :: _ :: _, h1 => simp at h1
      | [], _ =>
        rw [hw] at hcl
        simp only
        cases hreq : h.isRequest with
        | true =>
          simp only [if_true]
          constructor
          · intro h1
            cases h1 with
            | none => exact ⟨rfl, rfl, rfl⟩
            | length _ _ h2 => rw [hcl] at h2; exact nomatch h2
            | chunks h2 => exact absurd h2 hc
          · rintro ⟨rfl, rfl, rfl⟩
            exact .none hc (.inr ⟨hreq, hcl⟩)
        | false =>
          simp only [Bool.false_eq_true, if_false]
          constructor
          · intro h1
            cases h1 with
            | none _ h2 =>
              rcases h2 with h2 | ⟨h2, _⟩
              · exact absurd h2 hb'
              · rw [hreq] at h2; exact nomatch h2
            | length _ _ h2 => rw [hcl] at h2; exact nomatch h2
            | chunks h2 => exact absurd h2 hc
          · exact fun h1 => False.elim h1
      | [v], _ =>
        rw [hw] at hcl hnum
        obtain ⟨n, hn, hlt⟩ := hnum v (by simp)
        have hval := lengthValue_sound hn hlt
        simp only [List.all_nil, if_true, hn]
        constructor
        · intro h1
          cases h1 with
          | none _ h2 =>
            rcases h2 with h2 | ⟨_, h2⟩
            · exact absurd h2 hb'
            · rw [hcl] at h2; exact nomatch h2
          | length _ _ h2 h3 =>
            rw [hcl] at h2
            cases h2
            exact ⟨lengthValue_unique h3 hval, rfl, rfl⟩
          | chunks h2 => exact absurd h2 hc
        · rintro ⟨rfl, rfl, rfl⟩
          exact .length hc hb' hcl hval

/-- **C69 for the parser, partial**: a head about whose framing there is no doubt, followed by a body with the framing of
    RFC 7230, in buffers of any sizes: the parser delivers the message with this content, and leaves what follows. -/
theorem accepts_rfc_partial (cfg : Cfg) (m : Msg) (h : Head) (w : Whole cfg m h) (hs : Dict)
    (hp : Plain m.requestMethod h hs) (data : Bytes) (tr : Dict) (a b rest : Bytes) (hh : MessageHead h hs a (b ++ rest))
    (hf : Fits (reading cfg m) h data tr b rest (framing m.requestMethod h hs)) (bufs : List Bytes)
    (hcut : Cuts bufs (a ++ b ++ rest)) :
    ∃ o, outcome cfg (fresh cfg m) bufs = some o ∧ Delivered cfg h hs data tr rest o :=
  message_accepted cfg m h w hs data tr (a ++ b) rest
    ⟨a, b, rfl, hh, (follows_rfc_partial (reading cfg m) w.order h hs hp data tr b rest).mpr hf⟩ bufs hcut

/-- **C69 for the parser, partial**: whenever it reports success it has read a head and a body, and if there is no doubt about
    the framing the body is the one of RFC 7230. -/
theorem ends_as_rfc_partial (cfg : Cfg) (m : Msg) (hm : Blank m) (ord : OrderOk cfg.ord) (hdr : cfg.headersOnly = false)
    (hmax : cfg.maxContent + 1 < 2 ^ 64) (bufs : List Bytes) (stream : Bytes) (hcut : Cuts bufs stream) (o : Outcome)
    (ho : outcome cfg (fresh cfg m) bufs = some o) (hy : o.result = .yes) :
    ∃ h hs data tr a b, stream = a ++ b ++ o.unread ∧ MessageHead h hs a (b ++ o.unread) ∧
      Delivered cfg h hs data tr o.unread o ∧
      (Plain m.requestMethod h hs → Fits (reading cfg m) h data tr b o.unread (framing m.requestMethod h hs)) := by
  obtain ⟨h, hs, data, tr, t, e, _, ⟨a, b, rfl, hh, hb⟩, hd⟩ := message_sound cfg m hm ord hdr hmax bufs stream hcut o ho hy
  exact ⟨h, hs, data, tr, a, b, e, hh, hd, fun hp => (follows_rfc_partial (reading cfg m) ord h hs hp data tr b _).mp hb⟩

/-! ### Plain heads, and departures -/

def get : Head := .request (b! "GET") (b! "/") [] 1 1
def status (code : Nat) : Head := .response 1 1 code (b! "x")

/-- Plain heads with every framing. -/
example : Plain [] get [(b! "Content-Length", b! " 12")] ∧ framing [] get [(b! "Content-Length", b! " 12")] = .length 12 :=
  ⟨⟨by decide +kernel, by decide +kernel, by decide +kernel,
    fun v hv => ⟨12, by revert v; decide +kernel, by decide⟩, by simp [get], by decide +kernel, by decide +kernel⟩,
    by decide +kernel⟩
example : Plain [] get [(b! "transfer-encoding", b! "gzip, Chunked"), (b! "Content-Length", b! "3")] ∧
    framing [] get [(b! "transfer-encoding", b! "gzip, Chunked"), (b! "Content-Length", b! "3")] = .chunked :=
  ⟨⟨by decide +kernel, by decide +kernel, by decide +kernel,
    fun v hv => ⟨3, by revert v; decide +kernel, by decide⟩, by simp [get], by decide +kernel, by decide +kernel⟩,
    by decide +kernel⟩
example : framing [] get [] = .none ∧ framing (b! "GET") (status 200) [] = .untilClose ∧
    framing (b! "HEAD") (status 200) [(b! "Content-Length", b! "9")] = .none := by decide +kernel

/-- What the parser makes of a stream in one buffer; `rm` is the method of the request that a response answers. -/
def sees (isRequest : Bool) (rm stream : Bytes) : Option HttpFraming.Seen :=
  (outcome { isRequest } (fresh { isRequest } { requestMethod := rm }) [stream]).map
    fun o => ⟨o.result, o.message.headers, o.message.content, o.payload, o.unread⟩

def headChunked : Bytes := b! "HTTP/1.1 200 x\r\nTransfer-Encoding: chunked\r\n\r\nHTTP/1.1 200 x\r\n\r\n"
def reset : Bytes := b! "HTTP/1.1 205 x\r\nContent-Length: 2\r\n\r\nab"
def twoLengths : Bytes := b! "POST / HTTP/1.1\r\nContent-Length: 1\r\nContent-Length: 2\r\n\r\nab"
def notLast : Bytes := b! "POST / HTTP/1.1\r\nTransfer-Encoding: chunked, gzip\r\n\r\n0\r\n\r\n"
def xchunked : Bytes := b! "POST / HTTP/1.1\r\nTransfer-Encoding: xchunkedx\r\nContent-Length: 5\r\n\r\n0\r\n\r\n"
def gzip : Bytes := b! "POST / HTTP/1.1\r\nTransfer-Encoding: gzip\r\nContent-Length: 1\r\n\r\nab"
def signed : Bytes := b! "POST / HTTP/1.1\r\nContent-Length: +1\r\n\r\nab"
def connect : Bytes := b! "HTTP/1.1 200 x\r\nContent-Length: 2\r\n\r\nab"

/-- **Finding.** A response to HEAD has no body, but if it announces chunks the parser reads some (http_parser.cpp:762-775): it takes the next response
    for the size of a chunk and fails. -/
theorem head_chunked_waits : framing (b! "HEAD") (status 200) [(b! "Transfer-Encoding", b! "chunked")] = .none ∧
    (sees false (b! "HEAD") headChunked).map (·.result) = some .no := by decide +kernel

/-- **Finding.** The content of a response 205 is left unread, and taken for the next response
    (response.hpp:81-87). -/
theorem reset_content_left : framing (b! "GET") (status 205) [(b! "Content-Length", b! "2")] = .length 2 ∧
    (sees false (b! "GET") reset).map (fun s => (s.result, s.unread)) = some (.yes, b! "ab") := by decide +kernel

/-- **Finding.** Two different lengths are an error; the parser takes the one its hash table finds first (message.hpp:317-326). -/
theorem two_lengths_accepted : framing [] get [(b! "Content-Length", b! "1"), (b! "Content-Length", b! "2")] = .error ∧
    (sees true [] twoLengths).map (fun s => (s.result, s.unread)) = some (.yes, b! "b") := by decide +kernel

/-- **Finding.** A request whose last coding is not `chunked` is an error; the parser reads chunks when the word occurs
    anywhere, even inside another word. -/
theorem chunked_anywhere : framing [] get [(b! "Transfer-Encoding", b! "chunked, gzip")] = .error ∧
    (sees true [] notLast).map (fun s => (s.result, s.unread)) = some (.yes, []) ∧
    framing [] get [(b! "Transfer-Encoding", b! "xchunkedx"), (b! "Content-Length", b! "5")] = .error ∧
    (sees true [] xchunked).map (fun s => (s.result, s.content, s.unread)) = some (.yes, [], []) := by decide +kernel

/-- **Finding.** An unknown coding is ignored, and the length taken instead. -/
theorem coding_ignored : framing [] get [(b! "Transfer-Encoding", b! "gzip"), (b! "Content-Length", b! "1")] = .error ∧
    (sees true [] gzip).map (fun s => (s.result, s.unread)) = some (.yes, b! "b") := by decide +kernel

/-- **Finding.** Lengths may have a sign. -/
theorem signed_length_accepted : framing [] get [(b! "Content-Length", b! "+1")] = .error ∧
    (sees true [] signed).map (fun s => (s.result, s.unread)) = some (.yes, b! "b") := by decide +kernel

/-- **Finding.** A successful response to CONNECT is followed by the tunnel; the parser reads a body. -/
theorem connect_has_body : framing (b! "CONNECT") (status 200) [(b! "Content-Length", b! "2")] = .none ∧
    (sees false (b! "CONNECT") connect).map (fun s => (s.result, s.unread)) = some (.yes, []) := by decide +kernel

end Verif.Props.HttpRfc
