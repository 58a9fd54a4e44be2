import Verif.Lemmas.HttpInv
import Verif.Lemmas.HttpIter
/-
A parser of requests never waits for the end of the connection: a request without length has no body.
-/
namespace Verif.Http

/-- The parser is not reading a body that ends with the connection. -/
def Ends (s : S) : Prop := s.ms ≠ .noLength

theorem Ends.congr {s s' : S} (h : Ends s) (e : s'.ms = s.ms) : Ends s' := by
  unfold Ends; rw [e]; exact h

theorem hstep_st_ms (cfg : Cfg) (s : S) (c : UInt8) : (hstep cfg s c).st.ms = s.ms := by
  obtain ⟨h1, h2, h3⟩ := hstep_ms cfg s c
  cases h : hstep cfg s c with
  | more s' => exact h1 s' h
  | done s' f => exact h2 s' f h
  | fail s' e => exact h3 s' e h

theorem cbyte_ends (cfg : Cfg) (s : S) (c : UInt8) (h : Ends s) : Ends (cbyte cfg s c).st := by
  cases hc : s.cs <;> simp only [cbyte, cstep, hc]
  case chunk =>
    have : Ends (chunkData cfg s c []).1 := by
      unfold chunkData
      (repeat' split) <;> exact h.congr rfl
    generalize chunkData cfg s c [] = q at *
    split <;> exact this.congr rfl
  case expFinalCrOrFooters =>
    split
    · exact h.congr rfl
    · simp [CRes.toH, HRes.st, Ends]
  all_goals (repeat' split)
  all_goals exact h.congr rfl

theorem inv_ends (cfg : Cfg) (hr : cfg.isRequest = true) : Inv cfg Ends where
  upd s l t c h := h.congr rfl
  ec s e h := h.congr rfl
  begin_ s h := h.congr rfl
  enter s _ _ := by simp [Ends]
  h s c h := h.congr (hstep_st_ms cfg s c)
  c := cbyte_ends cfg
  fh s h hs := by
    rw [finishHeaders_eq]
    have h1 : Ends (finishHeaders1 cfg s) := h.congr (by unfold finishHeaders1 updateMessage; split <;> rfl)
    generalize finishHeaders1 cfg s = t at *
    unfold finishHeaders2
    (repeat' split) <;> first
      | (intro hc; contradiction)
      | exact h1.congr rfl
      | (unfold Ends; rw [createBuffer_ms]; intro hc; contradiction)
      | (exfalso; simp_all)
  cc s h := h.congr (by unfold concatenateChunks createBuffer; dsimp only; (repeat' split) <;> rfl)
  content s buf h hs := by
    unfold consumeContent storeContent blit
    dsimp only
    (repeat' split) <;> exact h.congr rfl
  noLength s buf h hs := absurd hs h
  fin s h := by
    unfold finish finish.tail finishForm
    dsimp only
    (repeat' split) <;> simp [Ends]
  status s b h := h.congr rfl

end Verif.Http
