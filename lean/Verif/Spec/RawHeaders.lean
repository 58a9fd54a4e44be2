import Verif.Spec.HttpFraming
/-
What a parser that saves the raw headers should have saved.
-/
namespace Verif.Http.Text

/-- `raw` is the text `t`, or the text and the byte that follows it. -/
def SavedAs (t rest raw : Bytes) : Prop := raw = t ∨ ∃ c r, rest = c :: r ∧ raw = t ++ [c]

/-- The trailers `t` before `rest`: nothing, or header lines up to an empty line, of which the first begins as if a line end
    came before. -/
def Trailers (old : Bool) (t rest : Bytes) : Prop := t = [] ∨ ∃ hs, Lines old hs ([LF, CR] ++ t) rest

end Verif.Http.Text
