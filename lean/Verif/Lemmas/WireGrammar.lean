import Verif.Spec.HttpFraming
import Verif.Lemmas.MessageIo
import Mathlib.Data.List.Induction
/-
The heads and messages that are sent are of the grammar that is read.
-/
namespace Verif.Http.Text
open Verif.Http

theorem number_toDec {n : Nat} (h : n < 65536) : Number n (toDec n) :=
  ⟨toDec_ne_nil n, toDec_isDigit n, by rw [decVal_toDec, Nat.mod_eq_of_lt h]⟩

theorem digit_ne_space : ∀ c : UInt8, isDigit c = true → c ≠ c! " " := by decide +kernel

theorem version_versionText (r : Bool) {major minor : Nat} (h1 : major < 65536) (h2 : minor < 65536) :
    Version r major minor (versionText major minor) := by
  have hns : c! " " ∉ toDec minor := fun hc => digit_ne_space _ (toDec_isDigit _ _ hc) rfl
  have hf : (toDec minor).filter (· ≠ c! " ") = toDec minor := by
    rw [List.filter_eq_self]
    intro c hc
    simpa using fun he : c = c! " " => hns (he ▸ hc)
  refine ⟨c! "H", toDec major, toDec minor, rfl, .inl rfl, number_toDec h1, ?_, ?_, fun _ => hns⟩
  · rw [hf]; exact number_toDec h2
  · intro he
    exact hns (List.mem_of_mem_head? he)

theorem firstLine_line {h : Head} (ok : h.Ok) : ∃ f, h.line = f ++ CRLF ∧ FirstLine h f := by
  cases h with
  | request meth r q major minor =>
    have ok : RequestLineOk meth r q major minor := ok
    refine ⟨[] ++ meth ++ b! " " ++ r ++ (if q.isEmpty then [] else b! "?" ++ q) ++ (b! " " ++ versionText major minor), ?_, ?_⟩
    · simp [Head.line, requestLine]
    · refine .request (by simp) ok.methodOk ok.resourceOk ok.resourceSize ok.queryOk ok.querySize ?_
        (.inr ⟨_, rfl, version_versionText true ok.majorOk.2 ok.minorOk⟩)
      cases q with
      | nil => exact .inl ⟨rfl, rfl⟩
      | cons a b => exact .inr rfl
  | response major minor code text =>
    have ok : StatusLineOk major minor code text := ok
    refine ⟨versionText major minor ++ b! " " ++ toDec code ++ (b! " " ++ text), ?_, ?_⟩
    · simp [Head.line, statusLine]
    · exact .response (version_versionText false ok.majorOk ok.minorOk) (number_toDec ok.codeOk) ok.textOk ok.textSize (.inr rfl)

theorem old_false {h : Head} (ok : h.Ok) : old h = false := by
  cases h with
  | request meth r q major minor =>
    have ok : RequestLineOk meth r q major minor := ok
    have := ok.majorOk.1
    simp only [old, beq_eq_false_iff_ne]
    omega
  | response => rfl

theorem fields_lines (hs : Dict) (h : ∀ e ∈ hs, HeaderOk e) :
    ∃ f, CRLF ++ (hs.map headerLine).flatten = f ++ CRLF ∧ Fields false hs f := by
  induction hs using List.reverseRecOn with
  | nil => exact ⟨[], rfl, .nil⟩
  | append_singleton r e ih =>
    obtain ⟨f, h1, h2⟩ := ih fun x hx => h x (by simp [hx])
    refine ⟨f ++ [] ++ [CR, LF] ++ [] ++ (e.1 ++ b! ": " ++ e.2), ?_, ?_⟩
    · rw [List.map_append, List.flatten_append, ← List.append_assoc, h1]
      simp [headerLine, CRLF, CR, LF]
    · exact .snoc h2 .nil (.crlf rfl) (by simp) ⟨h e (by simp), .inl rfl⟩

/-- A head that is sent is of the grammar. -/
theorem messageHead_wire {h : Head} {hs : Dict} (ok : h.Ok) (hok : ∀ e ∈ hs, HeaderOk e) (rest : Bytes) :
    MessageHead h hs (wireHead h hs) rest := by
  obtain ⟨f, h1, h2⟩ := firstLine_line ok
  obtain ⟨g, h3, h4⟩ := fields_lines hs hok
  refine ⟨f, g ++ ([] ++ [CR, LF] ++ [CR, LF]), ?_, h2, ?_⟩
  · unfold wireHead headerBlock
    rw [h1, List.append_assoc, ← List.append_assoc CRLF, h3]
    simp [CRLF, CR, LF]
  · rw [old_false ok]
    exact ⟨g, _, rfl, h4, .empty .nil (.crlf rfl) (.crlf rfl)⟩

end Verif.Http.Text
