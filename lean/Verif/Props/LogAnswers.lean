import Verif.Model.LogAnswers
import Verif.Spec.ServiceConfig
import Verif.Props.LogRing
import Verif.Props.Responses
/-
C49, seen by a client: a request for the log is answered with the last events, one line each.
-/
namespace Verif.Props.LogAnswers
open Verif.Http hiding run
open Verif.Writer Verif.Spec.Writer Verif.Spec.Responses Verif.Responses Verif.LogAnswers Verif.Props.HttpBody
open Verif.Props.Responses Verif.Spec.LogRing
open Verif.LogRing (St)

theorem written_texts (l : List Bytes) : written (l.map Op.text) = l.flatten := by
  induction l with
  | nil => rfl
  | cons a l ih => rw [List.map_cons, List.flatten_cons, ← ih]; rfl

theorem log_writes (b : Build) (s : St) : OnlyWrites (logWrites b s) := by
  rw [onlyWrites_iff]
  cases b with
  | library => simp [logWrites]
  | ostream => rfl
  | disabled => rfl

/-- What a client reads: the text of the log, or the remark that there is none. -/
def text : Build → St → Bytes
  | .library, s => s.events.flatten
  | .ostream, _ => b! "Using ostream logging.\r\n"
  | .disabled, _ => b! "Logging is disabled.\r\n"

theorem log_page (b : Build) (s : St) (req : Msg) : page (log b s req) = text b s := by
  cases b with
  | library => exact written_texts s.events
  | ostream => rfl
  | disabled => rfl

/-- A request for the log (not HEAD, and HTTP/1.0 or later) is answered with 200, `text/plain` and exactly the strings that are kept, one
    after the other; the client receives them as one response, however the stream is cut. -/
theorem log_received_partial (cfg : Cfg) (hk : cfg.isRequest = false) (m0 : Msg) (hb : Blank m0) (hord : Http.OrderOk cfg.ord)
    (hho : cfg.headersOnly = false) (hhand : cfg.handler = false) (t : TableOrder) (ht : t.Ok) (req : Msg) (hver : req.verMajor ≠ 0)
    (lc : Lifecycle) (b : Build) (s : St) (hm : m0.requestMethod = req.method) (hhead : req.method ≠ b! "HEAD")
    (hsize : (text b s).length + 1 < 2 ^ 64) (hmax : (text b s).length ≤ cfg.maxContent)
    (tail : Bytes) (bufs : List Bytes) (hcut : Cuts bufs (((log b s req).writer t req lc).wire ++ tail)) :
    ∃ o, outcome cfg (fresh cfg m0) bufs = some o ∧ o.result = .yes ∧ o.error = none ∧ o.unread = tail ∧
      Holds o.message 200 (b! "OK") [(b! "Content-Type", b! "text/plain")] (text b s) := by
  have hs : Sendable (log b s req) := by
    refine sendable_of 200 (b! "OK") (status_plain _ hver).1 (status_plain _ hver).2 (by decide +kernel) (log_writes b s) ?_
    intro e he
    obtain rfl := List.mem_singleton.1 he
    exact ⟨headerOk_of (by decide +kernel) (valueChar_of (by decide +kernel)) (by decide +kernel), by decide +kernel⟩
  rw [← log_page b s req] at hsize hmax ⊢
  obtain ⟨o, ho, g1, g2, g3, g4⟩ := reply_received_partial cfg hk m0 hb hord hho hhand t ht req lc _ hs hm hhead hsize hmax tail bufs hcut
  refine ⟨o, ho, g1, g2, g3, ?_⟩
  have h1 : (log b s req).code = 200 := (status_plain _ hver).1
  have h2 : (log b s req).text = b! "OK" := (status_plain _ hver).2
  rw [h1, h2] at g4
  exact g4

/-- The line of an event. -/
def line (e : Event) : Bytes := e.time ++ [c! " "] ++ e.level ++ [c! " "] ++ e.logger ++ b! " - " ++ e.message

open Verif.Spec.Config (eol lines)

theorem lines_line (l rest : Bytes) (h : ∀ c ∈ l, eol c = false) :
    lines (l ++ [0x0a] ++ rest) = (l :: (lines rest).1, (lines rest).2) := by
  induction l with
  | nil => rfl
  | cons c l ih =>
    have hc := h c List.mem_cons_self
    have := ih fun c hc => h c (List.mem_cons_of_mem _ hc)
    simp only [List.cons_append] at this ⊢
    rw [lines, if_neg (by simp [hc])]
    rw [this]

/-- Read line by line, the log has exactly one line for each of the last events, in order, if no event contains the end of a line. -/
theorem log_lines_partial (m : UInt32) (hm : LogRing.Small m) (events : List Event) (h : ∀ e ∈ events, ∀ c ∈ line e, eol c = false) :
    ∃ s, (St.init.setMax m).run ((events.map format).map .add) = some s ∧
      lines (text .library s) = ((last m.toNat events).map line, []) := by
  obtain ⟨s, h1, h2, -⟩ := LogRing.last_max_partial m hm (events.map format)
  refine ⟨s, h1, ?_⟩
  have h3 : last m.toNat (events.map format) = (last m.toNat events).map format := by
    simp [last, List.map_drop]
  simp only [text, h2, h3]
  have h4 : ∀ e ∈ last m.toNat events, ∀ c ∈ line e, eol c = false :=
    fun e he => h e (List.mem_of_mem_drop he)
  clear h h1 h2 h3
  generalize last m.toNat events = l at h4 ⊢
  induction l with
  | nil => rfl
  | cons e es ih =>
    have h5 := ih fun e' he => h4 e' (List.mem_cons_of_mem _ he)
    rw [List.map_cons, List.flatten_cons, List.map_cons]
    show lines (line e ++ [0x0a] ++ _) = _
    rw [lines_line _ _ (h4 e List.mem_cons_self), h5]

/-- **Violated without that condition:** the text of a message is not changed, so a message with a line end in it is read as two events,
    and a client can put what looks like an event of another logger into the log. -/
theorem log_forged : ∃ e e1 e2 : Event, format e = format e1 ++ format e2 ∧ e.logger = e1.logger ∧ e2.logger ≠ e.logger :=
  ⟨⟨b! "1", b! "WARN", b! "pion.http", b! "not found: /x\n2 FATAL pion.auth - admin logged in"⟩,
   ⟨b! "1", b! "WARN", b! "pion.http", b! "not found: /x"⟩, ⟨b! "2", b! "FATAL", b! "pion.auth", b! "admin logged in"⟩,
   by decide +kernel, rfl, by decide +kernel⟩

/-- Two of three events are left, and a client reads them. -/
def sample : Option (Tri × Nat × Option Bytes) :=
  ((St.init.setMax 2).run (([⟨b! "1", b! "INFO", b! "a", b! "x"⟩, ⟨b! "2", b! "INFO", b! "a", b! "y"⟩,
    ⟨b! "3", b! "WARN", b! "b", b! "z"⟩].map format).map .add)).bind fun s =>
  (outcome { isRequest := false } (fresh { isRequest := false } { requestMethod := b! "GET" })
    [((log .library s { method := b! "GET" }).writer {} { method := b! "GET" } .keepAlive).wire]).map
    fun o => (o.result, o.message.statusCode, o.message.contentBytes)

example : sample = some (.yes, 200, some (b! "2 INFO a - y\n3 WARN b - z\n")) := by decide +kernel

end Verif.Props.LogAnswers
