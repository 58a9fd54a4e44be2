import Verif.Lemmas.HttpInv
import Verif.Lemmas.HttpFramingRun
/-
After the head of a message, its cookies and query parameters stay what they are until the message is finished.
-/
namespace Verif.Http

/-- The head has been read, with these cookies and query parameters. -/
structure AfterHead (C Q : Dict) (s : S) : Prop where
  cookies : s.msg.cookies = C
  queries : s.msg.queries = Q
  notStart : s.ms ≠ .start
  notHeaders : s.ms ≠ .headers

theorem AfterHead.congr {C Q : Dict} {s s' : S} (h : AfterHead C Q s) (e1 : s'.msg.cookies = s.msg.cookies)
    (e2 : s'.msg.queries = s.msg.queries) (e3 : s'.ms = s.ms) : AfterHead C Q s' :=
  ⟨e1.trans h.cookies, e2.trans h.queries, by rw [e3]; exact h.notStart, by rw [e3]; exact h.notHeaders⟩

theorem hswitch_dicts (cfg : Cfg) (s : S) (c : UInt8) : (hswitch cfg s c).st.msg.cookies = s.msg.cookies ∧
    (hswitch cfg s c).st.msg.queries = s.msg.queries ∧ (hswitch cfg s c).st.ms = s.ms := by
  cases h : s.hs <;> simp only [hswitch, h]
  all_goals (repeat' split)
  all_goals exact ⟨rfl, rfl, rfl⟩

theorem hstep_dicts (cfg : Cfg) (s : S) (c : UInt8) : (hstep cfg s c).st.msg.cookies = s.msg.cookies ∧
    (hstep cfg s c).st.msg.queries = s.msg.queries ∧ (hstep cfg s c).st.ms = s.ms := by
  unfold hstep
  cases cfg.saveRaw
  · exact hswitch_dicts cfg s c
  · exact hswitch_dicts cfg { s with raw := s.raw ++ [c] } c

theorem cbyte_afterHead (cfg : Cfg) {C Q : Dict} (s : S) (c : UInt8) (h : AfterHead C Q s) : AfterHead C Q (cbyte cfg s c).st := by
  cases hc : s.cs <;> simp only [cbyte, cstep, hc]
  case chunk =>
    have : AfterHead C Q (chunkData cfg s c []).1 := by
      unfold chunkData
      (repeat' split) <;> exact h.congr rfl rfl rfl
    generalize chunkData cfg s c [] = q at *
    split <;> exact this.congr rfl rfl rfl
  case expFinalCrOrFooters =>
    split
    · exact h.congr rfl rfl rfl
    · exact ⟨h.cookies, h.queries, by simp [CRes.toH, HRes.st], by simp [CRes.toH, HRes.st]⟩
  all_goals (repeat' split)
  all_goals exact h.congr rfl rfl rfl

theorem invRun_afterHead (cfg : Cfg) (C Q : Dict) : InvRun cfg (AfterHead C Q) where
  upd s l t c h := h.congr rfl rfl rfl
  ec s e h := h.congr rfl rfl rfl
  begin_ s h := h.congr rfl rfl rfl
  enter s hs h := absurd hs h.notStart
  h s c h := h.congr (hstep_dicts cfg s c).1 (hstep_dicts cfg s c).2.1 (hstep_dicts cfg s c).2.2
  c := cbyte_afterHead cfg
  fh s h hs := absurd hs h.notHeaders
  cc s h := by
    unfold concatenateChunks createBuffer
    dsimp only
    (repeat' split) <;> exact h.congr rfl rfl rfl
  content s buf h hs := by
    unfold consumeContent storeContent blit
    dsimp only
    (repeat' split) <;> exact h.congr rfl rfl rfl
  noLength s buf h hs := by
    unfold consumeAsNextChunk
    dsimp only
    (repeat' split) <;> exact h.congr rfl rfl rfl

theorem finishHeaders2_afterHead (cfg : Cfg) (s : S) (h : (finishHeaders2 cfg s).1 ≠ .no) :
    AfterHead s.msg.cookies s.msg.queries (finishHeaders2 cfg s).2 := by
  revert h
  unfold finishHeaders2
  split
  · exact fun _ => ⟨rfl, rfl, by simp, by simp⟩
  split
  · exact fun _ => ⟨rfl, rfl, by simp, by simp⟩
  split
  · split
    · simp
    · rename_i m hm
      have hm' : m.cookies = s.msg.cookies ∧ m.queries = s.msg.queries := by
        unfold Msg.updateContentLength at hm
        split at hm
        · simp only [Option.some.injEq] at hm; subst hm; exact ⟨rfl, rfl⟩
        · simp only [Option.map_eq_some_iff] at hm
          obtain ⟨n, _, rfl⟩ := hm
          exact ⟨rfl, rfl⟩
      intro _
      split
      · exact ⟨hm'.1, hm'.2, by simp, by simp⟩
      · dsimp only
        unfold createBuffer
        (repeat' split) <;> exact ⟨hm'.1, hm'.2, by simp, by simp⟩
  split
  · exact fun _ => ⟨rfl, rfl, by simp, by simp⟩
  · exact fun _ => ⟨rfl, rfl, by simp, by simp⟩

end Verif.Http
