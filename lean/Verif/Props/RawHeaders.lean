import Verif.Lemmas.RawHeaders
import Verif.Props.HttpGrammar
import Verif.Props.HttpUntilClose
/-
C97: the raw headers.
-/
namespace Verif.Props.RawHeaders
open Verif.Http Verif.Http.Text Verif.Props.HttpSegmentation Verif.Props.HttpBody Verif.Props.HttpGrammar

/-- **C97, part.** The parser of a complete message, however it has been cut into buffers, has saved the text of its head
    and, behind it, the text of its trailers, and nothing else; but each of them may have the byte that follows it at its
    end (`one_byte_too_many`). That is so only if the text is not complete before that byte is seen. -/
theorem raw_headers_partial (cfg : Cfg) (hsave : cfg.saveRaw = true) (m : Msg) (hm : Blank m) (bufs : List Bytes)
    (stream : Bytes) (hcut : Cuts bufs stream) (o : Outcome) (ho : outcome cfg (fresh cfg m) bufs = some o)
    (hy : o.result = .yes) :
    ∃ h hs head body trailers x y, stream = head ++ body ++ trailers ++ o.unread ∧
      cfg.isRequest = h.isRequest ∧ MessageHead h hs head (body ++ trailers ++ o.unread) ∧ Trailers (old h) trailers o.unread ∧
      (¬ AnnouncesChunks cfg.ord hs → trailers = [] ∧ y = []) ∧
      o.rawHeaders = x ++ y ∧
      SavedAs head (body ++ trailers ++ o.unread) x ∧ (x = head ↔ MessageHead h hs head []) ∧
      SavedAs trailers o.unread y ∧ (Trailers (old h) trailers [] → y = trailers) := by
  rw [outcome_cuts cfg _ hcut (nonempty_of_yes hcut ho hy)] at ho
  obtain ⟨h, hs, t, tail, hg, rfl, hk⟩ := begins_with_head hm.notMissing ho hy
  obtain ⟨r, hr⟩ := runs_exists cfg _ (parseBegin (fresh cfg m)) (t ++ tail) (Nat.le_refl _)
  rw [outcome_of_runs cfg hr] at ho
  have ho := Option.some.inj ho
  rw [parseBegin_fresh cfg m hm.notMissing] at hr
  obtain ⟨rc, s', rest⟩ := r
  have hy' : rc = .yes := by rw [← ho] at hy; exact hy
  subst hy'
  obtain ⟨body, tr, x, y, e1, e2, e3, e4, e5, e6, e7, e8⟩ := message_raw hsave hm hg hk hr
  subst e1
  have hu : o.unread = rest := by rw [← ho]; rfl
  have hraw : o.rawHeaders = x ++ y := by
    rw [← ho]
    exact (parseEnd_raw cfg .yes s' 0).trans e2
  rw [hu]
  exact ⟨h, hs, t, body, tr, x, y, by simp, hk, hg, e6, e8, hraw, e3, e4.symm, e5, e7⟩

/-- **C97.** If the head is written in the usual form, every line with CR LF, and the message has no chunks, the parser has
    saved exactly the head. -/
theorem raw_headers_exact (cfg : Cfg) (hsave : cfg.saveRaw = true) (m : Msg) (hm : Blank m) (h : Head) (hs : Dict)
    (hk : cfg.isRequest = h.isRequest) (ok : h.Ok) (hok : ∀ e ∈ hs, HeaderOk e) (hc : ¬ AnnouncesChunks cfg.ord hs)
    (tail : Bytes) (bufs : List Bytes) (hcut : Cuts bufs (wireHead h hs ++ tail)) (o : Outcome)
    (ho : outcome cfg (fresh cfg m) bufs = some o) (hy : o.result = .yes) : o.rawHeaders = wireHead h hs := by
  obtain ⟨h', hs', t, body, tr, x, y, e1, hk', e2, e3, e4, e5, e6, e7, e8, e9⟩ :=
    raw_headers_partial cfg hsave m hm bufs _ hcut o ho hy
  have hw := wire_in_grammar h hs ok hok tail
  obtain ⟨rfl, rfl, rfl, -⟩ := unambiguous hw e2 (by rw [e1]; simp) (hk.symm.trans hk')
  obtain ⟨rfl, rfl⟩ := e4 hc
  rw [e5, e7.2 (wire_in_grammar h hs ok hok [])]
  simp

/-- **C97, part.** The same for a response that ends with the connection. -/
theorem raw_headers_until_close_partial (cfg : Cfg) (hsave : cfg.saveRaw = true) (m : Msg) (hm : Blank m)
    (bufs : List Bytes) (stream : Bytes) (hcut : Cuts bufs stream) (o o' : Outcome)
    (ho : outcome cfg (fresh cfg m) bufs = some o) (hmore : o.result = .more)
    (he : outcomeAtEof cfg (fresh cfg m) bufs = some (false, o')) :
    ∃ h hs head body, stream = head ++ body ∧ cfg.isRequest = h.isRequest ∧ MessageHead h hs head body ∧
      SavedAs head body o'.rawHeaders ∧ (o'.rawHeaders = head ↔ MessageHead h hs head []) := by
  have hbne : bufs ≠ [] := by
    rintro rfl
    have : (some (true, (checkPrematureEof cfg (fresh cfg m)).2)).map (·.1) = some false := by
      have := congrArg (Option.map (·.1)) he
      exact this
    exact nomatch this
  obtain ⟨rc, s', rest', more, s'', f1, f2, f3⟩ := feed_cuts cfg bufs (fresh cfg m) hcut.nonempty hbne
  rw [hcut.flat] at f2
  have hrc : rc = .more := by
    rw [outcome, f1] at ho
    have := Option.some.inj ho
    rw [← this] at hmore
    exact hmore
  subst hrc
  rw [outcomeAtEof, f1] at he
  simp only [Option.map_some, if_true, Option.some.injEq, Prod.mk.injEq] at he
  have h1 : s'.ms = .noLength := by
    have := he.1
    unfold checkPrematureEof at this
    split at this
    · exact nomatch this
    · rename_i h; simpa using h
  have hraw1 : o'.rawHeaders = s'.raw := by
    rw [← he.2]
    show (checkPrematureEof cfg s').2.raw = _
    unfold checkPrematureEof
    rw [if_neg (by rw [h1]; simp)]
    show (finish cfg _).raw = _
    rw [concatenateChunks_setms]
    exact ((parseEnd_raw cfg .yes _ (finish cfg { concatenateChunks s' with ms := .end_ }).lastRead).trans (concatenateChunks_raw s'))
  have hraw2 : s'.raw = s''.raw := by rw [eq_setL (f3 (by simp))]; rfl
  rw [eq_setL (f3 (by simp))] at h1
  have hms : s''.ms = .noLength := h1
  obtain ⟨r, t, hr, e⟩ := parse_runs cfg (fresh cfg m) stream
  rw [parseBegin_fresh cfg m hm.notMissing] at hr
  rw [e] at f2
  simp only [Option.some.injEq, Prod.mk.injEq] at f2
  obtain ⟨g1, g2, _⟩ := f2
  have hraw3 : s''.raw = r.2.1.raw := by rw [← g2]; exact parseEnd_raw cfg _ _ _
  have hrms : r.2.1.ms = .noLength := by
    rw [g1] at g2; rw [← g2] at hms; exact hms
  have hhead : ∃ h hs t rest, MessageHead h hs t rest ∧ stream = t ++ rest ∧ cfg.isRequest = h.isRequest := by
    cases hr with
    | stop _ => exact Verif.Props.HttpUntilClose.head_of_noLength (by rw [g1]; simp) hrms
    | next h1 h2 _ => exact head_of_iter (.inr ⟨h1, h2⟩)
  obtain ⟨h, hs, a, body, hh, rfl, hk⟩ := hhead
  obtain ⟨x, y1, y2, y3⟩ := head_raw hsave (m := m) hh hk
  have hraw4 : r.2.1.raw = x := by
    cases hr with
    | stop _ => exact y1
    | next k1 k2 k3 =>
      obtain ⟨s, hd, hi⟩ := iter_messageHead m hh hk
      rw [hi] at k1 k3 y1
      rcases finishHeaders2_phase cfg s k1 with ⟨_, p, _⟩ | p
      · exact absurd hrms ((Verif.Props.HttpUntilClose.inv_past cfg).runs k3 ⟨by rw [p]; simp, by rw [p]; simp, by rw [p]; simp⟩).1
      · rw [(content_raw k3 p).1, ← y1]
  have : o'.rawHeaders = x := by rw [hraw1, hraw2, hraw3, hraw4]
  rw [this]
  exact ⟨h, hs, a, body, rfl, hk, hh, y2, y3.symm⟩

/-- **C97.** A parser that has not been told to save them has no raw headers. -/
theorem not_saved (cfg : Cfg) (hsave : cfg.saveRaw = false) (m : Msg) (bufs : List Bytes) (o : Outcome)
    (ho : outcome cfg (fresh cfg m) bufs = some o) : o.rawHeaders = [] := by
  unfold outcome at ho
  cases hf : feed cfg (fresh cfg m) bufs with
  | none => rw [hf] at ho; simp at ho
  | some r =>
    rw [hf] at ho
    rw [← Option.some.inj ho]
    exact (inv_unsaved hsave).feed bufs (I := fun s => s.raw = []) (s := fresh cfg m) rfl hf

example : (outcome { isRequest := true } (fresh { isRequest := true } {}) [b! "GET / HTTP/1.1\r\nA: b", b! "\r\n\r\n"]).map
    (fun o => (o.result, o.rawHeaders)) = some (.yes, []) := by decide +kernel

/-- What a parser of requests has saved, and what it has left unread. -/
def savedOf (text : Bytes) : Option (Tri × Bytes × Bytes) :=
  (outcome { isRequest := true, saveRaw := true } (fresh { isRequest := true, saveRaw := true } {}) [text]).map fun o =>
    (o.result, o.rawHeaders, o.unread)

/-- **C97, negation.** If the empty line is a single LF (or CR), the head is known to be complete when the next byte is seen;
    this byte is saved with the head although it belongs to the body, or to the next request. The same happens behind
    trailers. -/
theorem one_byte_too_many :
    savedOf (b! "GET /a HTTP/1.1\r\nA: b\r\n\nPOST /b") =
      some (.yes, b! "GET /a HTTP/1.1\r\nA: b\r\n\nP", b! "POST /b") ∧
    savedOf (b! "PUT / HTTP/1.1\r\nContent-Length: 2\r\n\nxy") =
      some (.yes, b! "PUT / HTTP/1.1\r\nContent-Length: 2\r\n\nx", []) ∧
    savedOf (b! "PUT / HTTP/1.1\r\nTransfer-Encoding: chunked\r\n\r\n0\r\nT: u\r\n\nGET") =
      some (.yes, b! "PUT / HTTP/1.1\r\nTransfer-Encoding: chunked\r\n\r\nT: u\r\n\nG", b! "GET") := by
  decide +kernel

/-! ## The hypotheses can be met -/

example : savedOf (b! "PUT / HTTP/1.1\r\nContent-Length: 2\r\n\r\nxyGET") =
    some (.yes, b! "PUT / HTTP/1.1\r\nContent-Length: 2\r\n\r\n", b! "GET") := by decide +kernel

example : savedOf (b! "PUT / HTTP/1.1\r\nTransfer-Encoding: chunked\r\n\r\n1\r\nx\r\n0\r\nT: u\r\n\r\nGET") =
    some (.yes, b! "PUT / HTTP/1.1\r\nTransfer-Encoding: chunked\r\n\r\nT: u\r\n\r\n", b! "GET") := by decide +kernel

example : (outcomeAtEof { isRequest := false, saveRaw := true } (fresh { isRequest := false, saveRaw := true } {})
      [b! "HTTP/1.1 200 x\r\nServer: x\r\n\r\nall", b! " of it"]).map (fun r => (r.1, r.2.rawHeaders)) =
    some (false, b! "HTTP/1.1 200 x\r\nServer: x\r\n\r\n") := by decide +kernel

example : Blank {} ∧ exampleHead.Ok ∧ (∀ e ∈ exampleHeaders, HeaderOk e) ∧ ¬ AnnouncesChunks id exampleHeaders :=
  ⟨⟨rfl, rfl, rfl, rfl⟩, exampleSetting.headOk, exampleSetting.headersOk, by
    rintro ⟨v, hv, _⟩
    have e : Dict.find? id exampleHeaders (b! "Transfer-Encoding") = none := by decide +kernel
    rw [e] at hv; exact nomatch hv⟩

end Verif.Props.RawHeaders
