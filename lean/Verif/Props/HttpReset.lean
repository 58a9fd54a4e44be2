import Verif.Lemmas.HttpReset
import Verif.Spec.HttpUse
import Verif.Props.HttpSegmentation
/-
C18: a parser that has been reset behaves like a new one.
-/
namespace Verif.Props.HttpReset
open Verif.Http

theorem see_sim {s t : S} (h : Sim s t) (rc : Tri) (unread : Bytes) : see rc unread t = see rc unread s := by
  obtain ⟨hn, hv, z, a, b, r, rfl, -⟩ := h
  rfl

theorem stepOp_sim (cfg : Cfg) {s t : S} (h : Sim s t) (op : Op) :
    ∃ o s' t', stepOp cfg s op = some (o, s') ∧ stepOp cfg t op = some (o, t') ∧ Sim s' t' := by
  cases op with
  | data buf =>
    obtain ⟨rc, s', t', rest, h1, h2, h3⟩ := parse_sim cfg h buf
    exact ⟨see rc rest s', s', t', by simp [stepOp, h1], by simp [stepOp, h2, see_sim h3], h3⟩
  | gap len =>
    obtain ⟨h1, h2⟩ := parseMissing_sim cfg h len
    refine ⟨see (parseMissing cfg s len).1 [] (parseMissing cfg s len).2, _, _, rfl, ?_, h2⟩
    simp only [stepOp]; rw [see_sim h2, h1]
  | eof =>
    obtain ⟨h1, h2⟩ := checkPrematureEof_sim cfg h
    refine ⟨see (if (checkPrematureEof cfg s).1 then .yes else .no) [] (checkPrematureEof cfg s).2, _, _, rfl, ?_, h2⟩
    simp only [stepOp]; rw [see_sim h2, h1]
  | reset m =>
    have h1 : Sim (Verif.Http.reset cfg s m) (Verif.Http.reset cfg t m) := by
      obtain ⟨hn, hv, z, a, b, r, rfl, -⟩ := h
      refine ⟨hn, hv, z, a, b, r, rfl, ?_⟩
      constructor <;>
        (unfold Verif.Http.reset initHs; cases cfg.isRequest <;> simp [liveN, liveV, liveZ, liveC, liveR])
    refine ⟨_, _, _, rfl, ?_, h1⟩
    simp only [stepOp]; rw [see_sim h1]

theorem history_sim (cfg : Cfg) (ops : List Op) : ∀ {s t : S}, Sim s t →
    (history cfg t ops).map (·.1) = (history cfg s ops).map (·.1) := by
  induction ops with
  | nil => intro s t _; rfl
  | cons op ops ih =>
    intro s t h
    obtain ⟨o, s', t', h1, h2, h3⟩ := stepOp_sim cfg h op
    simp only [history, h1, h2, Option.map_map]
    have := ih h3
    cases ha : history cfg s' ops <;> cases hb : history cfg t' ops <;> simp_all

/-- The object forgets its past: from *any* state whatever of the parser. -/
theorem reset_any_state (cfg : Cfg) (s : S) (m : Msg) (ops : List Op) :
    (history cfg (Verif.Http.reset cfg s m) ops).map (·.1) = (history cfg (fresh cfg m) ops).map (·.1) :=
  history_sim cfg ops (reset_sim cfg s m)

theorem history_total (cfg : Cfg) (ops : List Op) : ∀ s, ∃ r, history cfg s ops = some r := by
  induction ops with
  | nil => intro s; exact ⟨_, rfl⟩
  | cons op ops ih =>
    intro s
    obtain ⟨o, s', _, h1, _, _⟩ := stepOp_sim cfg (Sim.refl s) op
    obtain ⟨r, hr⟩ := ih s'
    exact ⟨(o :: r.1, r.2), by simp [history, h1, hr]⟩

/-- **C18.** Use a new parser in any way (`past`), reset it, and use it in any way (`ops`, which may contain more
    resets): everything seen from the reset on is what a newly constructed parser shows. -/
theorem history_after_reset (cfg : Cfg) (m₀ m : Msg) (past ops : List Op) :
    ∃ before after, (history cfg (fresh cfg m₀) (past ++ .reset m :: ops)).map (·.1) =
        some (before ++ see .more [] (fresh cfg m) :: after) ∧
      before.length = past.length ∧ (history cfg (fresh cfg m) ops).map (·.1) = some after := by
  generalize fresh cfg m₀ = s
  induction past generalizing s with
  | nil =>
    obtain ⟨r, hr⟩ := history_total cfg ops (fresh cfg m)
    have h := reset_any_state cfg s m ops
    rw [hr] at h
    obtain ⟨r', hr'⟩ := history_total cfg ops (Verif.Http.reset cfg s m)
    rw [hr'] at h
    simp only [Option.map_some, Option.some.injEq] at h
    refine ⟨[], r.1, ?_, rfl, by rw [hr]; rfl⟩
    simp only [List.nil_append, history, stepOp, hr', Option.map_some, h]
    rfl
  | cons op past ih =>
    obtain ⟨o, s', _, h1, _, _⟩ := stepOp_sim cfg (Sim.refl s) op
    obtain ⟨before, after, e1, e2, e3⟩ := ih s'
    refine ⟨o :: before, after, ?_, by simp [e2], e3⟩
    simp only [List.cons_append, history, h1]
    cases hh : history cfg s' (past ++ .reset m :: ops) with
    | none => rw [hh] at e1; simp at e1
    | some r => rw [hh] at e1; simp only [Option.map_some, Option.some.injEq] at e1; simp [e1]

-- A chunked request broken off inside a chunk leaves the parser in a state different from a new one ...
def broken : Bytes := b! "GET / HTTP/1.1\r\nTransfer-Encoding: chunked\r\n\r\n5\r\nab"
example : (parse HttpSegmentation.reqCfg (fresh HttpSegmentation.reqCfg {}) broken).map
    (fun r => (r.1, r.2.1.chunkSize, r.2.1.chunkRead, r.2.1.headerName)) =
    some (.more, 5, 2, b! "Transfer-Encoding") := by decide +kernel
-- ... and after `reset` the next message is parsed normally
example : (history HttpSegmentation.reqCfg (fresh HttpSegmentation.reqCfg {})
      [.data broken, .reset {}, .data HttpSegmentation.exampleStream]).map
    (fun r => r.1.map fun o => (o.result, o.gcount, o.message.content)) =
    some [(.more, 51, []), (.more, 0, []), (.yes, 45, [some 104, some 105])] := by decide +kernel

end Verif.Props.HttpReset
