import Verif.Lemmas.Listen
/-
C93: where a server listens.
-/
namespace Verif.Props.Listen
open Verif.Listen Verif.Spec.Listen
open Verif.AdminRights (Proc)
open Verif.Props

private theorem srv_endpoint {w : World} {n : Nat} {e : Endpoint} (h : w.endpoint n = some e) :
    ∃ v, w.srv n = some v ∧ v.ep = e := by
  simpa [World.endpoint] using h

private theorem step_start {p : Proc} {ops : List Op} {n : Nat} {v : Srv} (h : (run p ops).srv n = some v) (os : Os) :
    (run p (ops ++ [.start n os])).srv n = some (start n os (run p ops).proc v).2.1 ∧
    (run p (ops ++ [.start n os])).log = (run p ops).log ++ (start n os (run p ops).proc v).1 ∧
    (run p (ops ++ [.start n os])).proc = (start n os (run p ops).proc v).2.2 := by
  rw [run_concat]
  simp [World.step, World.update, h]

/-- C93: a server says that it listens exactly if its socket does. -/
theorem listens_iff (p : Proc) (ops : List Op) (n : Nat) :
    (run p ops).isListening n = true ↔ ∃ e, listensAt (run p ops).log n = some e := by
  have h := agrees p ops n
  unfold World.isListening
  cases hv : (run p ops).srv n with
  | none => rw [hv] at h; simp [Agrees] at h; simp [h]
  | some v =>
    rw [hv] at h
    simp only [Agrees] at h
    split at h
    · rename_i hl
      obtain ⟨e, _, he, _⟩ := h
      simp [hl, he]
    · rename_i hl
      simp [hl, h.1]

private theorem start_listening {n : Nat} {v : Srv} (hl : v.listening = false) (os : Os) (p : Proc) :
    let r := start n os p v
    (r.2.1.listening = true ↔ v.acc = .closed ∧ os.opens = true ∧ os.options = true ∧ os.binds = true ∧
      (v.ep.port = 0 → os.names = true) ∧ os.listens = true) ∧
    (r.2.1.listening = true → r.2.1.ep = given v.ep os ∧ r.2.1.acc = .listening (given v.ep os)) ∧
    (if r.2.1.listening then ∃ u, r.1.getLast? = some (u, .started n)
      else ∃ u c, r.1.getLast? = some (u, .threw n c) ∧ (r.2.1.acc = .closed → c = .open)) := by
  dsimp only
  unfold start
  rw [if_neg (by simp [hl])]
  generalize withRights p = r
  obtain ⟨a, p'⟩ := r
  dsimp only
  by_cases hc : v.acc = .closed
  · unfold attempt
    rw [hc]
    dsimp only
    obtain ⟨o1, o2, o3, o4, o5, q⟩ := os
    by_cases hp : v.ep.port = 0 <;> cases o1 <;> cases o2 <;> cases o3 <;> cases o4 <;> cases o5
    all_goals simp [hp, hl, hc, given]
  · have : attempt n os v = ([], v, some .openAgain) := by
      unfold attempt
      split
      · contradiction
      · rfl
    rw [this]
    simp [hl, hc]

private theorem closed_iff {p : Proc} {ops : List Op} {n : Nat} {v : Srv} (h : (run p ops).srv n = some v)
    (hl : v.listening = false) : v.acc = .closed ↔ broken (run p ops).log n = false := by
  have := agrees p ops n
  rw [h] at this
  simp only [Agrees, hl] at this
  rcases this with ⟨_, ⟨h1, h2, _⟩ | ⟨h1, h2, _⟩⟩
  · simp [h1, h2]
  · simp [h1, h2]

/-- C93: what `start` does on a server that does not listen. It returns and the server listens where it was told, or at
    a port that the system chose if it was told port 0, if the system grants all that it is asked for and no start of the
    server has failed; otherwise it throws and the server does not listen. -/
theorem start_answers (p : Proc) (ops : List Op) (n : Nat) (os : Os) (e : Endpoint)
    (he : (run p ops).endpoint n = some e) (hl : (run p ops).isListening n = false) :
    let w := run p (ops ++ [.start n os])
    (w.isListening n = true ↔ broken (run p ops).log n = false ∧ os.opens = true ∧ os.options = true ∧ os.binds = true ∧
      (e.port = 0 → os.names = true) ∧ os.listens = true) ∧
    (w.isListening n = true → (∃ u, w.log.getLast? = some (u, .started n)) ∧ listensAt w.log n = some (given e os) ∧
      w.endpoint n = some (given e os)) ∧
    (w.isListening n = false → ∃ u c, w.log.getLast? = some (u, .threw n c)) := by
  obtain ⟨v, hv, rfl⟩ := srv_endpoint he
  have hl' : v.listening = false := by simpa [World.isListening, hv] using hl
  obtain ⟨h1, h2, _⟩ := step_start hv os
  obtain ⟨h3, h4, h5⟩ := start_listening (n := n) hl' os (run p ops).proc
  have hi : (run p (ops ++ [.start n os])).isListening n = (start n os (run p ops).proc v).2.1.listening := by
    simp [World.isListening, h1]
  have hag := agrees p (ops ++ [.start n os]) n
  rw [h1] at hag
  dsimp only
  rw [hi]
  refine ⟨?_, ?_, ?_⟩
  · rw [h3, closed_iff hv hl']
  · intro hs
    rw [if_pos hs] at h5
    obtain ⟨u, h5⟩ := h5
    obtain ⟨h6, h7⟩ := h4 hs
    simp only [Agrees, hs, if_true] at hag
    obtain ⟨e, h8, h9, _⟩ := hag
    rw [h7] at h8
    cases h8
    refine ⟨⟨u, ?_⟩, h9, ?_⟩
    · rw [h2, List.getLast?_append, h5]; rfl
    · simp [World.endpoint, h1, h6]
  · intro hs
    rw [if_neg (by simp [hs])] at h5
    obtain ⟨u, c, h5, _⟩ := h5
    exact ⟨u, c, by rw [h2, List.getLast?_append, h5]; rfl⟩

/-- C93, a start that is granted: a server that was not started before listens where it was told. -/
example : let w := run ⟨0, 0, 0, 0, 0, 0⟩ [.create 1 8080, .start 1 {}]
    w.isListening 1 = true ∧ listensAt w.log 1 = some { port := 8080 } := by decide +kernel

/-- C93: starting a server that listens does nothing. -/
theorem start_again (p : Proc) (ops : List Op) (n : Nat) (os : Os) (h : (run p ops).isListening n = true) :
    (run p (ops ++ [.start n os])).log = (run p ops).log ∧
    (run p (ops ++ [.start n os])).endpoint n = (run p ops).endpoint n ∧
    (run p (ops ++ [.start n os])).isListening n = true := by
  cases hv : (run p ops).srv n with
  | none => simp [World.isListening, hv] at h
  | some v =>
    have hl : v.listening = true := by simpa [World.isListening, hv] using h
    obtain ⟨h1, h2, _⟩ := step_start hv os
    simp [World.isListening, World.endpoint, h1, h2, hv, start, hl]

/-! ### where it was told -/

private theorem set_srv (w : World) (n : Nat) (f : Endpoint → Endpoint) (i : Nat) :
    (w.set n f).srv i = if i = n then (w.srv i).map fun v => { v with ep := f v.ep } else w.srv i := by
  unfold World.set World.update
  cases h : w.srv n with
  | none => by_cases hi : i = n <;> simp [hi, h]
  | some v => by_cases hi : i = n <;> simp [hi, h]

private theorem start_ep (n : Nat) (os : Os) (p : Proc) (v : Srv) :
    (start n os p v).2.1.ep = v.ep ∨ v.ep.port = 0 ∧ (start n os p v).2.1.ep = { v.ep with port := os.port } := by
  unfold start
  split
  · exact .inl rfl
  · generalize withRights p = r
    obtain ⟨a, p'⟩ := r
    dsimp only
    by_cases hc : v.acc = .closed
    · unfold attempt
      rw [hc]
      dsimp only
      obtain ⟨o1, o2, o3, o4, o5, q⟩ := os
      by_cases hp : v.ep.port = 0 <;> cases o1 <;> cases o2 <;> cases o3 <;> cases o4 <;> cases o5
      all_goals simp [hp]
    · have : attempt n os v = ([], v, some .openAgain) := by
        unfold attempt
        split
        · contradiction
        · rfl
      rw [this]
      exact .inl rfl

private theorem create_srv (w : World) (n : Nat) (e : Endpoint) (i : Nat) :
    (w.create n e).srv i = if i = n ∧ w.srv i = none then some { ep := e } else w.srv i := by
  unfold World.create
  cases h : w.srv n with
  | none => by_cases hi : i = n <;> simp [hi, h]
  | some v => by_cases hi : i = n <;> simp [hi, h]

private theorem update_srv (w : World) (n : Nat) (f : Proc → Srv → List (Nat × Ev) × Srv × Proc) (i : Nat) :
    (w.update n f).srv i = if i = n then (w.srv i).map fun v => (f w.proc v).2.1 else w.srv i := by
  unfold World.update
  cases h : w.srv n with
  | none => by_cases hi : i = n <;> simp [hi, h]
  | some v => by_cases hi : i = n <;> simp [hi, h]

/-- What a server says its endpoint is, compared with what it was told. -/
private def Near (ops : List Op) (n : Nat) (v : Option Srv) (t : Option Endpoint) : Prop :=
  match v, t with
  | none, none => True
  | some v, some t => v.ep.v6 = t.v6 ∧ v.ep.addr = t.addr ∧
      (v.ep.port = t.port ∨ t.port = 0 ∧ ∃ os, Op.start n os ∈ ops ∧ v.ep.port = os.port)
  | _, _ => False

private theorem near (p : Proc) (ops : List Op) (n : Nat) : Near ops n ((run p ops).srv n) (told ops n) := by
  induction ops using List.reverseRecOn with
  | nil => simp [run, told, Near]
  | append_singleton ops op ih =>
    have hmono : ∀ v t, Near ops n v t → Near (ops ++ [op]) n v t := by
      intro v t h
      unfold Near at *
      split <;> simp_all
      obtain ⟨_, _, h | ⟨h, os, h1, h2⟩⟩ := h
      · exact .inl h
      · exact .inr ⟨h, os, .inl h1, h2⟩
    have ih' := hmono _ _ ih
    rw [run_concat]
    have ht : told (ops ++ [op]) n = tell n (told ops n) op := by simp [told]
    rw [ht]
    clear ht
    generalize told ops n = t at *
    generalize hw : run p ops = w at *
    have hnone : w.srv n = none ↔ t = none := by
      unfold Near at ih
      split at ih <;> simp_all
    have hset : ∀ (m : Nat) (f : Endpoint → Endpoint)
        (_ : ∀ a b : Endpoint, a.v6 = b.v6 ∧ a.addr = b.addr ∧
          (a.port = b.port ∨ b.port = 0 ∧ ∃ os, Op.start n os ∈ ops ∧ a.port = os.port) →
          (f a).v6 = (f b).v6 ∧ (f a).addr = (f b).addr ∧
          ((f a).port = (f b).port ∨ (f b).port = 0 ∧ ∃ os, Op.start n os ∈ ops ∧ (f a).port = os.port)),
        Near (ops ++ [op]) n ((w.set m f).srv n) (if m = n then t.map f else t) := by
      intro m f hf
      rw [set_srv]
      by_cases hm : n = m
      · subst hm
        rw [if_pos rfl, if_pos rfl]
        apply hmono
        revert ih
        cases w.srv n <;> cases t <;> simp only [Near, Option.map_none, Option.map_some, imp_self]
        exact hf _ _
      · rw [if_neg hm, if_neg (Ne.symm hm)]
        exact ih'
    have hcre : ∀ (m : Nat) (e : Endpoint),
        Near (ops ++ [op]) n ((w.create m e).srv n) (if m = n ∧ t = none then some e else t) := by
      intro m e
      rw [create_srv]
      by_cases hm : n = m
      · subst hm
        by_cases hs : w.srv n = none
        · simp [hs, hnone.1 hs, Near]
        · rw [if_neg (fun h => hs h.2), if_neg (fun h => hs (hnone.2 h.2))]
          exact ih'
      · rw [if_neg (fun h => hm h.1), if_neg (fun h => hm h.1.symm)]
        exact ih'
    cases op with
    | create m q => exact hcre m _
    | createAt m e => exact hcre m e
    | setPort m q => exact hset m _ (fun a b h => ⟨h.1, h.2.1, .inl rfl⟩)
    | setAddress m f a => exact hset m _ (fun a b h => ⟨rfl, rfl, h.2.2⟩)
    | setEndpoint m e => exact hset m _ (fun a b h => ⟨rfl, rfl, .inl rfl⟩)
    | start m os =>
      dsimp only [World.step]
      rw [update_srv]
      split
      · rename_i hm
        subst hm
        revert ih
        cases w.srv n with
        | none => cases t <;> simp [Near, tell]
        | some v =>
        cases t with
        | none => simp [Near]
        | some t =>
        simp only [Near, Option.map_some, tell]
        rintro ⟨h1, h2, h3⟩
        rcases start_ep n os w.proc v with h | ⟨h4, h⟩
        · rw [h]
          refine ⟨h1, h2, ?_⟩
          rcases h3 with h3 | ⟨h3, os', h5, h6⟩
          · exact .inl h3
          · exact .inr ⟨h3, os', by simp [h5], h6⟩
        · rw [h]
          refine ⟨h1, h2, ?_⟩
          rcases h3 with h3 | ⟨h3, os', h5, h6⟩
          · exact .inr ⟨h3 ▸ h4, os, by simp, rfl⟩
          · exact .inr ⟨h3, os, by simp, rfl⟩
      · exact ih'
    | stop m =>
      dsimp only [World.step]
      rw [update_srv]
      split
      · revert ih'
        cases w.srv n with
        | none => cases t <;> simp [Near, tell]
        | some v =>
        cases t with
        | none => simp [Near]
        | some t =>
        simp only [Near, Option.map_some, tell]
        have : (stop m w.proc v).2.1.ep = v.ep := by unfold stop; split <;> rfl
        rw [this]
        exact id
      · exact ih'
    | destroy m =>
      dsimp only [World.step, tell]
      by_cases hm : n = m
      · subst hm
        rw [if_pos rfl]
        split
        · rename_i h; simp [h, Near]
        · simp [Near]
      · rw [if_neg (Ne.symm hm)]
        split
        · exact ih'
        · dsimp only
          rw [if_neg hm]
          exact ih'

/-- C93: the endpoint a server answers when asked is the one it was told last; if it was told port 0, the port may be one
    that the system chose when the server was started. -/
theorem endpoint_told (p : Proc) (ops : List Op) (n : Nat) :
    ((run p ops).endpoint n = none ↔ told ops n = none) ∧
    ∀ e, (run p ops).endpoint n = some e → ∃ t, told ops n = some t ∧ e.v6 = t.v6 ∧ e.addr = t.addr ∧
      (e.port = t.port ∨ t.port = 0 ∧ ∃ os, Op.start n os ∈ ops ∧ e.port = os.port) := by
  have h := near p ops n
  unfold World.endpoint
  revert h
  cases (run p ops).srv n <;> cases told ops n <;> simp [Near]

private theorem step_reports {w : World} {n : Nat} (h : ∀ v, w.srv n = some v → v.listening = true → v.acc = .listening v.ep) (op : Op) (ho : tells n op = false) :
    ∀ v, (w.step op).srv n = some v → v.listening = true → v.acc = .listening v.ep := by
  intro v hv hl
  have hset : ∀ m f, m ≠ n → (w.set m f).srv n = some v → v.acc = .listening v.ep := by
    intro m f hm hv
    rw [set_srv, if_neg (Ne.symm hm)] at hv
    exact h v hv hl
  have hcre : ∀ m e, (w.create m e).srv n = some v → v.acc = .listening v.ep := by
    intro m e hv
    rw [create_srv] at hv
    split at hv
    · cases hv; cases hl
    · exact h v hv hl
  cases op with
  | create m q => exact hcre m _ hv
  | createAt m e => exact hcre m e hv
  | setPort m q => exact hset m _ (by simpa [tells] using ho) hv
  | setAddress m f a => exact hset m _ (by simpa [tells] using ho) hv
  | setEndpoint m e => exact hset m _ (by simpa [tells] using ho) hv
  | start m os =>
    dsimp only [World.step] at hv
    rw [update_srv] at hv
    split at hv
    · rename_i hm
      subst hm
      cases hw : w.srv n with
      | none => simp [hw] at hv
      | some x =>
        rw [hw] at hv
        simp only [Option.map_some, Option.some.injEq] at hv
        cases hx : x.listening with
        | true =>
          simp only [start, hx, if_true] at hv
          rw [← hv]
          exact h x hw hx
        | false =>
          have := (start_listening (n := n) hx os w.proc).2.1
          rw [hv] at this
          obtain ⟨h1, h2⟩ := this hl
          rw [h1, h2]
    · exact h v hv hl
  | stop m =>
    dsimp only [World.step] at hv
    rw [update_srv] at hv
    split at hv
    · cases hw : w.srv n with
      | none => simp [hw] at hv
      | some x =>
        rw [hw] at hv
        simp only [Option.map_some, Option.some.injEq] at hv
        rw [← hv] at hl
        unfold stop at hl
        split at hl
        · cases hl
        · rename_i hx; exact absurd hl hx
    · exact h v hv hl
  | destroy m =>
    have hm : m ≠ n := by simpa [tells] using ho
    dsimp only [World.step] at hv
    split at hv
    · exact h v hv hl
    · dsimp only at hv
      rw [if_neg (Ne.symm hm)] at hv
      exact h v hv hl

/-- C93 (partial): the endpoint that a listening server answers when asked is where its socket listens, if the server was
    not told another one since it was started. Missing: otherwise it answers one that it does not listen on, see
    `reports_another`. -/
theorem reports_partial (p : Proc) (pre post : List Op) (n : Nat) (hp : (run p pre).isListening n = false)
    (ht : ∀ op ∈ post, tells n op = false) (e : Endpoint) (he : listensAt (run p (pre ++ post)).log n = some e) :
    (run p (pre ++ post)).endpoint n = some e := by
  have key : ∀ v, (run p (pre ++ post)).srv n = some v → v.listening = true → v.acc = .listening v.ep := by
    clear he
    induction post using List.reverseRecOn with
    | nil =>
      intro v hv hl
      simp only [List.append_nil] at hv
      simp [World.isListening, hv, hl] at hp
    | append_singleton post op ih =>
      rw [← List.append_assoc, run_concat]
      exact step_reports (ih fun op h => ht op (by simp [h])) op (ht op (by simp))
  have hl := (listens_iff p (pre ++ post) n).2 ⟨e, he⟩
  cases hv : (run p (pre ++ post)).srv n with
  | none => simp [World.isListening, hv] at hl
  | some v =>
    have hvl : v.listening = true := by simpa [World.isListening, hv] using hl
    have hag := agrees p (pre ++ post) n
    rw [hv] at hag
    simp only [Agrees, hvl, if_true] at hag
    obtain ⟨e', h1, h2, _⟩ := hag
    rw [key v hv hvl] at h1
    rw [h2] at he
    cases he
    cases h1
    simp [World.endpoint, hv]

/-- C93: with `endpoint_told`, a server listens where it was told. -/
example : let ops : List Op := [.create 1 0, .setAddress 1 false 7, .start 1 { port := 50000 }, .stop 1, .start 1 {}]
    told ops 1 = some { addr := 7, port := 0 } ∧ listensAt (run ⟨0, 0, 0, 0, 0, 0⟩ ops).log 1 = some { addr := 7, port := 50000 } ∧
      (run ⟨0, 0, 0, 0, 0, 0⟩ ops).endpoint 1 = some { addr := 7, port := 50000 } := by decide +kernel

/-- C93 fails: a listening server that is told another port answers this one when asked, and goes on listening on the
    first. -/
theorem reports_another :
    let w := run ⟨0, 0, 0, 0, 0, 0⟩ [.create 1 8080, .start 1 {}, .setPort 1 8081]
    w.isListening 1 = true ∧ w.endpoint 1 = some { port := 8081 } ∧ listensAt w.log 1 = some { port := 8080 } := by
  decide +kernel

/-- C93 fails: ports are cut to 16 bits without an error. Whoever asks for port 65536 more gets the port itself, and
    whoever asks for 65536 gets any port. -/
theorem port_cut (p : Proc) (ops : List Op) (n port : Nat) :
    run p (ops ++ [.create n (port + 65536)]) = run p (ops ++ [.create n port]) ∧
    run p (ops ++ [.setPort n (port + 65536)]) = run p (ops ++ [.setPort n port]) := by
  have : toPort (port + 65536) = toPort port := by
    apply UInt16.toNat.inj
    simp [toPort]
  simp only [run_concat, World.step, this, and_self]

/-! ### stopping and starting again -/

/-- C93: once `stop` returns the server does not listen, and has no socket if it listened before. It keeps its endpoint. -/
theorem stop_closes (p : Proc) (ops : List Op) (n : Nat) :
    let w := run p (ops ++ [.stop n])
    w.isListening n = false ∧ listensAt w.log n = none ∧ ((run p ops).isListening n = true → sockets w.log n = 0) ∧
      w.endpoint n = (run p ops).endpoint n ∧ broken w.log n = broken (run p ops).log n := by
  have h1 := agrees p ops n
  have h2 := agrees p (ops ++ [.stop n]) n
  dsimp only
  rw [run_concat] at *
  dsimp only [World.step] at *
  unfold World.isListening World.endpoint
  rw [update_srv, if_pos rfl] at *
  cases hv : (run p ops).srv n with
  | none =>
    rw [hv] at h1 h2
    simp only [Option.map_none, Agrees] at h1 h2
    refine ⟨by simp, h2.1, by simp, by simp, by rw [h1.2.1, h2.2.1]⟩
  | some v =>
    rw [hv] at h1 h2
    simp only [Option.map_some] at h2 ⊢
    cases hl : v.listening with
    | true =>
      simp only [stop, hl, if_true, Agrees] at h1 h2
      obtain ⟨e, _, _, h3, _⟩ := h1
      simp at h2
      refine ⟨by simp [stop, hl], h2.1, ?_, by simp [stop, hl], by rw [h3, h2.2.1]⟩
      intro _
      have := h2.2.2
      simp only [opens, closes] at this
      simp only [sockets]
      omega
    | false =>
      have hs : (stop n (run p ops).proc v).2.1 = v := by simp [stop, hl]
      rw [hs] at h2
      simp only [hl, Agrees] at h2
      refine ⟨by simp [stop, hl], h2.1, by simp, by simp [stop, hl], ?_⟩
      simp [World.update, hv, stop, hl]

/-- C93: a server that listens can be stopped and started again. It listens where it says, also when the system chose
    its port: it asks for the same port again. -/
theorem restart (p : Proc) (ops : List Op) (n : Nat) (os : Os) (hos : Grants os) (e : Endpoint)
    (he : (run p ops).endpoint n = some e) (hl : (run p ops).isListening n = true) :
    let w := run p (ops ++ [.stop n, .start n os])
    w.isListening n = true ∧ listensAt w.log n = some (given e os) := by
  obtain ⟨h1, h2, h3, h4, h5⟩ := stop_closes p ops n
  have h6 := start_answers p (ops ++ [.stop n]) n os e (h4.trans he) h1
  rw [List.append_assoc] at h6
  have hb : broken (run p ops).log n = false := by
    have := agrees p ops n
    cases hv : (run p ops).srv n with
    | none => simp [World.isListening, hv] at hl
    | some v =>
      have hvl : v.listening = true := by simpa [World.isListening, hv] using hl
      rw [hv] at this
      simp only [Agrees, hvl, if_true] at this
      obtain ⟨_, _, _, h, _⟩ := this
      exact h
  obtain ⟨g1, g2, g3, g4, g5⟩ := hos
  have h7 := h6.1.2 ⟨h5.trans hb, g1, g2, g3, fun _ => g4, g5⟩
  exact ⟨h7, (h6.2.1 h7).2.1⟩

/-- C93, a port chosen by the system stays the port of the server: it is asked for when the server is started again. -/
theorem keeps_port (p : Proc) (ops : List Op) (n : Nat) (os os' : Os) (hos : Grants os) (hos' : Grants os') (hp : os.port ≠ 0)
    (e : Endpoint) (he : (run p ops).endpoint n = some e) (hl : (run p ops).isListening n = false)
    (hb : broken (run p ops).log n = false) :
    listensAt (run p (ops ++ [.start n os])).log n = some (given e os) ∧
    listensAt (run p (ops ++ [.start n os, .stop n, .start n os'])).log n = some (given e os) := by
  obtain ⟨g1, g2, g3, g4, g5⟩ := hos
  have h := start_answers p ops n os e he hl
  have hl' := h.1.2 ⟨hb, g1, g2, g3, fun _ => g4, g5⟩
  obtain ⟨_, h2, h3⟩ := h.2.1 hl'
  refine ⟨h2, ?_⟩
  have := (restart p (ops ++ [.start n os]) n os' hos' _ h3 hl').2
  rw [List.append_assoc] at this
  have hg : given (given e os) os' = given e os := by
    by_cases h0 : e.port = 0 <;> simp [given, h0, hp]
  rw [hg] at this
  exact this

example : let os : Os := { port := 50000 }
    (run ⟨0, 0, 0, 0, 0, 0⟩ [.create 1 0]).endpoint 1 = some { port := 0 } ∧ Grants os ∧ os.port ≠ 0 ∧
      given { port := 0 } os = { port := 50000 } := by
  refine ⟨by decide, ⟨rfl, rfl, rfl, rfl, rfl⟩, by decide, by decide⟩

/-! ### after a failure -/

private theorem broken_step {w : World} {n : Nat} (ha : Agrees (w.srv n) w.log n)
    (ha' : ∀ op, Agrees ((w.step op).srv n) (w.step op).log n) (h : broken w.log n = true) (op : Op) (ho : op ≠ .destroy n) :
    broken (w.step op).log n = true := by
  cases hv : w.srv n with
  | none => rw [hv] at ha; simp [Agrees, h] at ha
  | some v =>
    rw [hv] at ha
    simp only [Agrees, h] at ha
    have hl : v.listening = false ∧ v.acc ≠ .closed := by
      split at ha
      · obtain ⟨_, _, _, h, _⟩ := ha; cases h
      · rename_i hl
        rcases ha with ⟨_, ⟨_, h, _⟩ | ⟨h, _⟩⟩
        · cases h
        · exact ⟨by simpa using hl, h⟩
    have hset : ∀ m f, broken (w.set m f).log n = true := by
      intro m f
      unfold World.set World.update
      split
      · exact h
      · simpa using h
    have hcre : ∀ m e, broken (w.create m e).log n = true := by
      intro m e
      unfold World.create
      split <;> exact h
    have hupd : ∀ m f, (∀ v, ∀ e ∈ (f w.proc v).1, e.2.server = m) → m ≠ n → broken (w.update m f).log n = true := by
      intro m f hf hm
      unfold World.update
      split
      · exact h
      · rename_i x hx
        exact ((foreign (l := w.log) (hf x) (Ne.symm hm)).2.1).trans h
    cases op with
    | create m q => exact hcre m _
    | createAt m e => exact hcre m e
    | setPort m q => exact hset m _
    | setAddress m f a => exact hset m _
    | setEndpoint m e => exact hset m _
    | start m os =>
      by_cases hm : m = n
      · subst hm
        have := ha' (.start m os)
        dsimp only [World.step] at this ⊢
        rw [update_srv, if_pos rfl, hv] at this
        simp only [Option.map_some] at this
        have hs : (start m os w.proc v).2.1 = v := by
          unfold start
          rw [if_neg (by simp [hl.1])]
          have : attempt m os v = ([], v, some .openAgain) := by
            unfold attempt
            split
            · exact absurd ‹_› hl.2
            · rfl
          rw [this]
        rw [hs] at this
        simp only [Agrees, hl.1] at this
        rcases this with ⟨_, ⟨h, _⟩ | ⟨_, h, _⟩⟩
        · exact absurd h hl.2
        · exact h
      · exact hupd m _ (fun v => start_server m os _ v) hm
    | stop m =>
      by_cases hm : m = n
      · subst hm
        simp [World.step, World.update, hv, stop, hl.1, h]
      · exact hupd m _ (fun v => stop_server m _ v) hm
    | destroy m =>
      have hm : m ≠ n := fun hm => ho (by rw [hm])
      dsimp only [World.step]
      split
      · exact h
      · rename_i x hx
        exact ((foreign (l := w.log) (destroy_server m w.proc x) (Ne.symm hm)).2.1).trans h

/-- C93 fails: after a start that failed in any but its first system call, such as a port that is in use, the server
    cannot be started any more, whatever is called on it and whatever the system would grant: the socket of the failed
    start stays open, and `start` wants to open one. With `start_answers`: every `start` throws. -/
theorem broken_forever (p : Proc) (ops ops' : List Op) (n : Nat) (h : broken (run p ops).log n = true)
    (hd : .destroy n ∉ ops') :
    broken (run p (ops ++ ops')).log n = true ∧ (run p (ops ++ ops')).isListening n = false := by
  have key : broken (run p (ops ++ ops')).log n = true := by
    induction ops' using List.reverseRecOn with
    | nil => simpa using h
    | append_singleton ops' op ih =>
      rw [← List.append_assoc, run_concat]
      refine broken_step (agrees p _ n) (fun op => by rw [← run_concat]; exact agrees p _ n)
        (ih fun h => hd (by simp [h])) op (fun h => hd (by simp [h]))
  refine ⟨key, ?_⟩
  have ha := agrees p (ops ++ ops') n
  cases hv : (run p (ops ++ ops')).srv n with
  | none => simp [World.isListening, hv]
  | some v =>
    rw [hv] at ha
    simp only [Agrees, key] at ha
    split at ha
    · obtain ⟨_, _, _, h, _⟩ := ha; cases h
    · rename_i hl; simpa [World.isListening, hv] using hl

/-- The port was in use and is free now, or the server is told another one: it does not start. A server that is made anew
    does. -/
theorem retry_violated :
    let p : Proc := ⟨0, 0, 0, 0, 0, 0⟩
    let busy : Op := .start 1 { binds := false }
    (run p [.create 1 8080, busy, .start 1 {}]).isListening 1 = false ∧
    (run p [.create 1 8080, busy, .stop 1, .setPort 1 8081, .start 1 {}]).isListening 1 = false ∧
    (run p [.create 1 8080, busy, .start 1 {}]).log.getLast? = some (0, .threw 1 .openAgain) ∧
    (run p [.create 1 8080, busy, .destroy 1, .create 1 8080, .start 1 {}]).isListening 1 = true := by
  refine ⟨?_, ?_, ?_, ?_⟩ <;> decide +kernel

/-- C93 (partial): after a start that failed because no socket could be made, the server can be started. Missing: the
    other failures. -/
theorem retry_partial (p : Proc) (ops : List Op) (n : Nat) (os os' : Os) (ho : os.opens = false) (hos : Grants os')
    (e : Endpoint) (he : (run p ops).endpoint n = some e) (hl : (run p ops).isListening n = false)
    (hb : broken (run p ops).log n = false) :
    (∃ u, (run p (ops ++ [.start n os])).log.getLast? = some (u, .threw n .open)) ∧
    listensAt (run p (ops ++ [.start n os, .start n os'])).log n = some (given e os') := by
  obtain ⟨v, hv, rfl⟩ := srv_endpoint he
  have hvl : v.listening = false := by simpa [World.isListening, hv] using hl
  have hc := (closed_iff hv hvl).2 hb
  obtain ⟨h1, h2, _⟩ := step_start hv os
  have hs : (start n os (run p ops).proc v).2.1 = v ∧
      ∃ u, (start n os (run p ops).proc v).1.getLast? = some (u, .threw n .open) := by
    unfold start attempt
    rw [if_neg (by simp [hvl]), hc]
    simp [ho]
  obtain ⟨hs, u, hu⟩ := hs
  rw [hs] at h1
  refine ⟨⟨u, by rw [h2, List.getLast?_append, hu]; rfl⟩, ?_⟩
  have hl' : (run p (ops ++ [.start n os])).isListening n = false := by simp [World.isListening, h1, hvl]
  have he' : (run p (ops ++ [.start n os])).endpoint n = some v.ep := by simp [World.endpoint, h1]
  obtain ⟨g1, g2, g3, g4, g5⟩ := hos
  have := start_answers p (ops ++ [.start n os]) n os' v.ep he' hl'
  have hl2 := this.1.2 ⟨(closed_iff h1 hvl).1 hc, g1, g2, g3, fun _ => g4, g5⟩
  have := (this.2.1 hl2).2.1
  rwa [List.append_assoc] at this

/-! ### sockets -/

/-- C93: a server has at most one socket, and one that does not exist has none. A start that fails again and again leaves
    one socket open, not many. -/
theorem sockets_le (p : Proc) (ops : List Op) (n : Nat) :
    sockets (run p ops).log n ≤ 1 ∧ (told ops n = none → sockets (run p ops).log n = 0) ∧
    (sockets (run p ops).log n = 1 ↔ (run p ops).isListening n = true ∨ broken (run p ops).log n = true) := by
  have h := agrees p ops n
  have ht := (endpoint_told p ops n).1
  have hs : sockets (run p ops).log n = opens (run p ops).log n - closes (run p ops).log n := rfl
  rw [hs]
  cases hv : (run p ops).srv n with
  | none =>
    rw [hv] at h
    obtain ⟨_, h1, h2⟩ := h
    rw [h2]
    simp [World.isListening, hv, h1]
  | some v =>
    rw [hv] at h
    simp only [Agrees] at h
    have : told ops n ≠ none := by
      rw [Ne, ← ht]
      simp [World.endpoint, hv]
    simp only [World.isListening, hv, Option.map_some, Option.getD_some]
    split at h
    · rename_i hl
      obtain ⟨e, _, _, _, h⟩ := h
      exact ⟨by omega, fun h => absurd h this, by simp [h, hl]⟩
    · rename_i hl
      rcases h with ⟨_, ⟨_, h1, h2⟩ | ⟨_, h1, h2⟩⟩
      · exact ⟨by omega, fun h => absurd h this, by simp [h2, h1, hl]⟩
      · exact ⟨by omega, fun h => absurd h this, by simp [h2, h1]⟩

/-! ### two servers -/

private theorem listening_start {p : Proc} {ops : List Op} {n : Nat} {os : Os} {m : Nat} {a : Endpoint}
    (h : listensAt (run p (ops ++ [.start n os])).log m = some a) :
    listensAt (run p ops).log m = some a ∨ m = n ∧ os.binds = true ∧ ∃ e, (run p ops).endpoint n = some e ∧ a = given e os := by
  by_cases hm : m = n
  · subst hm
    cases hl : (run p ops).isListening m with
    | true => rw [(start_again p ops m os hl).1] at h; exact .inl h
    | false =>
      cases he : (run p ops).endpoint m with
      | none =>
        have hn : (run p ops).srv m = none := by simpa [World.endpoint] using he
        have : run p (ops ++ [.start m os]) = run p ops := by simp [run_concat, World.step, World.update, hn]
        rw [this] at h
        exact .inl h
      | some e =>
        have := start_answers p ops m os e he hl
        have hl' := (listens_iff p (ops ++ [.start m os]) m).2 ⟨a, h⟩
        have hg := (this.2.1 hl').2.1
        rw [h] at hg
        exact .inr ⟨rfl, (this.1.1 hl').2.2.2.1, e, rfl, Option.some.inj hg⟩
  · left
    rw [run_concat] at h
    dsimp only [World.step] at h
    unfold World.update at h
    split at h
    · exact h
    · rename_i v hv
      rw [← h]
      exact (foreign (l := (run p ops).log) (start_server n os (run p ops).proc v) hm).1.symm

private theorem listening_other {p : Proc} {ops : List Op} {op : Op} {m : Nat} {a : Endpoint}
    (ho : ∀ n os, op ≠ .start n os) (h : listensAt (run p (ops ++ [op])).log m = some a) :
    listensAt (run p ops).log m = some a := by
  rw [run_concat] at h
  have hset : ∀ n f, listensAt ((run p ops).set n f).log m = some a → listensAt (run p ops).log m = some a := by
    intro n f h
    unfold World.set World.update at h
    split at h
    · exact h
    · simpa using h
  have hcre : ∀ n e, listensAt ((run p ops).create n e).log m = some a → listensAt (run p ops).log m = some a := by
    intro n e h
    unfold World.create at h
    split at h <;> exact h
  cases op with
  | create n q => exact hcre n _ h
  | createAt n e => exact hcre n e h
  | setPort n q => exact hset n _ h
  | setAddress n f x => exact hset n _ h
  | setEndpoint n e => exact hset n _ h
  | start n os => exact absurd rfl (ho n os)
  | stop n =>
    by_cases hm : m = n
    · subst hm
      rw [← run_concat, (stop_closes p ops m).2.1] at h
      cases h
    · dsimp only [World.step] at h
      unfold World.update at h
      split at h
      · exact h
      · rename_i v hv
        rw [← h]
        exact (foreign (l := (run p ops).log) (stop_server n (run p ops).proc v) hm).1.symm
  | destroy n =>
    by_cases hm : m = n
    · subst hm
      rw [← run_concat] at h
      have hl := (listens_iff p (ops ++ [.destroy m]) m).2 ⟨a, h⟩
      rw [run_concat] at hl
      simp only [World.isListening, World.step] at hl
      split at hl
      · rename_i hn; simp [hn] at hl
      · simp at hl
    · dsimp only [World.step] at h
      split at h
      · exact h
      · rename_i v hv
        rw [← h]
        exact (foreign (l := (run p ops).log) (destroy_server n (run p ops).proc v) hm).1.symm

/-- C93: two servers never listen on one endpoint, if the system does not bind a socket where another one listens. -/
theorem exclusive (p : Proc) (ops : List Op) (h : Honest p ops) (m n : Nat) (hmn : m ≠ n) (a b : Endpoint)
    (ha : listensAt (run p ops).log m = some a) (hb : listensAt (run p ops).log n = some b) : ¬Conflict a b := by
  induction ops using List.reverseRecOn generalizing a b with
  | nil => simp [run, listensAt] at ha
  | append_singleton ops op ih =>
    have hh : Honest p ops := by
      intro pre n os post hp
      exact h pre n os (post ++ [op]) (by rw [hp]; simp)
    by_cases ho : ∃ k os, op = .start k os
    · obtain ⟨k, os, rfl⟩ := ho
      have hk := h ops k os [] rfl
      rcases listening_start ha with ha' | ⟨rfl, ha1, e, he, rfl⟩
      · rcases listening_start hb with hb | ⟨rfl, hb1, e, he, rfl⟩
        · exact ih hh a b ha' hb
        · intro hc
          refine hk hb1 e he m a ha' ?_
          obtain ⟨c1, c2, c3⟩ := hc
          exact ⟨c1.symm, c2.symm, by tauto⟩
      · rcases listening_start hb with hb | ⟨rfl, _⟩
        · exact hk ha1 e he n b hb
        · exact absurd rfl hmn
    · have ho' : ∀ k os, op ≠ .start k os := fun k os h => ho ⟨k, os, h⟩
      exact ih hh a b (listening_other ho' ha) (listening_other ho' hb)

/-- The hypothesis can be met, with two servers. -/
example : let ops : List Op := [.create 1 8080, .create 2 8081, .start 1 {}, .start 2 {}]
    Honest ⟨0, 0, 0, 0, 0, 0⟩ ops ∧ listensAt (run ⟨0, 0, 0, 0, 0, 0⟩ ops).log 1 = some { port := 8080 } ∧
      listensAt (run ⟨0, 0, 0, 0, 0, 0⟩ ops).log 2 = some { port := 8081 } := by
  refine ⟨?_, by decide +kernel, by decide +kernel⟩
  intro pre n os post h hb e he m a ha
  match pre, h with
  | [], h => simp at h
  | [_], h => simp at h
  | [o1, o2], h =>
    simp only [List.cons_append, List.nil_append, List.cons.injEq, Op.start.injEq] at h
    obtain ⟨rfl, rfl, _⟩ := h
    have : (run ⟨0, 0, 0, 0, 0, 0⟩ [.create 1 8080, .create 2 8081]).log = [] := rfl
    rw [this] at ha
    cases ha
  | [o1, o2, o3], h =>
    simp only [List.cons_append, List.nil_append, List.cons.injEq, Op.start.injEq] at h
    obtain ⟨rfl, rfl, rfl, ⟨rfl, rfl⟩, _⟩ := h
    have h2 : (run ⟨0, 0, 0, 0, 0, 0⟩ [.create 1 8080, .create 2 8081, .start 1 {}]).endpoint 2 = some { port := 8081 } := by
      decide +kernel
    rw [h2] at he
    cases he
    have h3 := ha
    by_cases hm : m = 1
    · subst hm
      have h1 : listensAt (run ⟨0, 0, 0, 0, 0, 0⟩ [.create 1 8080, .create 2 8081, .start 1 {}]).log 1 = some { port := 8080 } := by
        decide +kernel
      rw [h1] at ha
      cases ha
      rintro ⟨_, h, _⟩
      exact absurd h (by decide)
    · exfalso
      have hlog : (run ⟨0, 0, 0, 0, 0, 0⟩ [.create 1 8080, .create 2 8081, .start 1 {}]).log =
          [(0, .before 1), (0, .opened 1), (0, .bound 1 { port := 8080 } { port := 8080 }), (0, .listens 1 { port := 8080 }),
            (0, .started 1)] := by decide +kernel
      rw [hlog] at ha
      simp [listensAt, Ne.symm hm] at ha
  | o1 :: o2 :: o3 :: o4 :: o5, h => simp at h

/-! ### the user the process runs as -/

/-- System calls that `start` makes. -/
private def binding : Ev → Bool
  | .opened _ | .bound _ _ _ | .listens _ _ => true
  | _ => false

private theorem attempt_binding (n : Nat) (os : Os) (v : Srv) : ∀ e ∈ (attempt n os v).1, binding e = true := by
  by_cases hc : v.acc = .closed
  · unfold attempt
    rw [hc]
    dsimp only
    obtain ⟨o1, o2, o3, o4, o5, q⟩ := os
    by_cases hp : v.ep.port = 0 <;> cases o1 <;> cases o2 <;> cases o3 <;> cases o4 <;> cases o5
    all_goals simp [hp, binding]
  · have : attempt n os v = ([], v, some .openAgain) := by
      unfold attempt
      split
      · contradiction
      · rfl
    rw [this]
    simp

private theorem rights_during (p : Proc) : (withRights p).1 = if MayRule p then 0 else p.euid := by
  unfold withRights AdminRights.St.construct AdminRights.Proc.seteuid MayRule
  by_cases h : p.euid = 0 ∨ p.ruid = 0 ∨ p.suid = 0
  · have : p.euid = 0 ∨ 0 = p.ruid ∨ 0 = p.euid ∨ 0 = p.suid := by omega
    simp [h, this]
  · have : ¬(p.euid = 0 ∨ 0 = p.ruid ∨ 0 = p.euid ∨ 0 = p.suid) := by omega
    simp [h, this]

private theorem rights_after {p : Proc} (h : Fits p.euid ∨ ¬MayRule p) : (withRights p).2 = p := by
  have e : (withRights p).2 = (AdminRights.run p [.construct, .release 0]).proc := rfl
  rw [e]
  by_cases hm : MayRule p
  · rcases h with h | h
    · exact (AdminRights.released_same_iff p hm (by unfold Fits at h; omega)).2 h
    · exact absurd hm h
  · refine (AdminRights.refused p ?_ _).1
    unfold MayRule at hm
    omega

private theorem start_users (n : Nat) (os : Os) (p : Proc) (h : Fits p.euid ∨ ¬MayRule p) (v : Srv) :
    (start n os p v).2.2 = p ∧
    ∀ e ∈ (start n os p v).1, e.1 = if binding e.2 ∧ MayRule p then 0 else p.euid := by
  unfold start
  split
  · simp
  · have h1 := rights_during p
    have h2 := rights_after h
    have h3 := attempt_binding n os v
    generalize withRights p = r at *
    obtain ⟨a, p'⟩ := r
    generalize attempt n os v = q at *
    obtain ⟨l, v', c⟩ := q
    dsimp only at h1 h2 h3 ⊢
    subst h2
    cases c with
    | none =>
      refine ⟨rfl, ?_⟩
      intro e he
      simp only [List.cons_append, List.mem_cons, List.mem_append, List.mem_map, List.not_mem_nil, or_false] at he
      rcases he with rfl | ⟨x, hx, rfl⟩ | rfl
      · simp [binding]
      · simp [h3 x hx, h1]
      · simp [binding]
    | some c =>
      refine ⟨rfl, ?_⟩
      intro e he
      simp only [List.cons_append, List.mem_cons, List.mem_append, List.mem_map, List.not_mem_nil, or_false] at he
      rcases he with rfl | ⟨x, hx, rfl⟩ | rfl
      · simp [binding]
      · simp [h3 x hx, h1]
      · simp [binding]

private theorem users (p : Proc) (h : Fits p.euid ∨ ¬MayRule p) (ops : List Op) :
    (run p ops).proc = p ∧ ∀ e ∈ (run p ops).log, e.1 = if binding e.2 ∧ MayRule p then 0 else p.euid := by
  induction ops using List.reverseRecOn with
  | nil => simp [run]
  | append_singleton ops op ih =>
    rw [run_concat]
    obtain ⟨i1, i2⟩ := ih
    have hupd : ∀ n (f : Proc → Srv → List (Nat × Ev) × Srv × Proc),
        (∀ v, (f p v).2.2 = p ∧ ∀ e ∈ (f p v).1, e.1 = if binding e.2 ∧ MayRule p then 0 else p.euid) →
        ((run p ops).update n f).proc = p ∧
        ∀ e ∈ ((run p ops).update n f).log, e.1 = if binding e.2 ∧ MayRule p then 0 else p.euid := by
      intro n f hf
      unfold World.update
      split
      · exact ⟨i1, i2⟩
      · rename_i v hv
        rw [i1]
        refine ⟨(hf v).1, ?_⟩
        intro e he
        rcases List.mem_append.1 he with he | he
        · exact i2 e he
        · exact (hf v).2 e he
    have hcre : ∀ n x, ((run p ops).create n x).proc = p ∧
        ∀ e ∈ ((run p ops).create n x).log, e.1 = if binding e.2 ∧ MayRule p then 0 else p.euid := by
      intro n x
      unfold World.create
      split <;> exact ⟨i1, i2⟩
    have hset : ∀ n f, ((run p ops).set n f).proc = p ∧
        ∀ e ∈ ((run p ops).set n f).log, e.1 = if binding e.2 ∧ MayRule p then 0 else p.euid :=
      fun n f => hupd n _ (fun v => ⟨rfl, by simp⟩)
    cases op with
    | create n q => exact hcre n _
    | createAt n e => exact hcre n e
    | setPort n q => exact hset n _
    | setAddress n f x => exact hset n _
    | setEndpoint n e => exact hset n _
    | start n os => exact hupd n _ (start_users n os p h)
    | stop n =>
      refine hupd n _ (fun v => ?_)
      unfold stop
      split <;> simp [binding]
    | destroy n =>
      dsimp only [World.step]
      split
      · exact ⟨i1, i2⟩
      · rename_i v hv
        refine ⟨i1, ?_⟩
        intro e he
        rcases List.mem_append.1 he with he | he
        · exact i2 e he
        · unfold destroy at he
          split at he
          · simp at he
          · simp only [List.mem_singleton] at he
            subst he
            simp [binding, i1]

/-- C93 (partial): starting and stopping servers leaves the process the user it has; only the calls that open, bind and
    listen are made as administrator, if the process may become that. So the handlers of the server are not called as
    administrator, nor are `before_starting` and `after_stopping`. Missing: user ids that do not fit in 16 bits, see
    `start_stays_administrator`. -/
theorem user_partial (p : Proc) (h : Fits p.euid ∨ ¬MayRule p) (ops : List Op) :
    (run p ops).proc = p ∧
    ∀ u e, (u, e) ∈ (run p ops).log → u = p.euid ∨
      u = 0 ∧ MayRule p ∧ ∃ n, e = .opened n ∨ (∃ a b, e = .bound n a b) ∨ ∃ a, e = .listens n a := by
  obtain ⟨h1, h2⟩ := users p h ops
  refine ⟨h1, ?_⟩
  intro u e he
  have := h2 _ he
  dsimp only at this
  split at this
  · rename_i hb
    right
    refine ⟨this, hb.2, ?_⟩
    cases e with
    | opened n => exact ⟨n, .inl rfl⟩
    | bound n a b => exact ⟨n, .inr (.inl ⟨a, b, rfl⟩)⟩
    | listens n a => exact ⟨n, .inr (.inr ⟨a, rfl⟩)⟩
    | _ => simp [binding] at hb
  · exact .inl this

example : Fits 1000 ∧ MayRule ⟨0, 1000, 0, 0, 0, 0⟩ := ⟨.inl (by decide), .inr (.inl rfl)⟩

/-- C93: the port is bound as administrator by every process that may become that, so that ports below 1024 can be used. -/
theorem binds_as_administrator (p : Proc) (h : Fits p.euid) (hm : MayRule p) (ops : List Op) (u n : Nat) (a b : Endpoint)
    (he : (u, .bound n a b) ∈ (run p ops).log) : u = 0 := by
  have := (users p (.inl h) ops).2 _ he
  simpa [binding, hm] using this

/-- C93 fails: the rights are meant to be taken for ports below 1024 only (/repo/src/tcp_server.cpp:83-84), but are taken
    for all ports. -/
theorem rights_any_port :
    (run ⟨0, 1000, 0, 0, 0, 0⟩ [.create 1 8080, .start 1 {}]).log =
      [(1000, .before 1), (0, .opened 1), (0, .bound 1 { port := 8080 } { port := 8080 }), (0, .listens 1 { port := 8080 }),
        (1000, .started 1)] := by
  decide +kernel

/-- C93 fails: with a user id that does not fit, such as 65536, the process is the administrator after the first start,
    whatever the port, and its handlers run as administrator. -/
theorem start_stays_administrator :
    (run ⟨0, 65536, 0, 0, 0, 0⟩ [.create 1 8080]).proc.euid = 65536 ∧
    (run ⟨0, 65536, 0, 0, 0, 0⟩ [.create 1 8080, .start 1 {}]).proc.euid = 0 ∧
    (run ⟨0, 65536, 0, 0, 0, 0⟩ [.create 1 8080, .start 1 { binds := false }]).proc.euid = 0 := by
  refine ⟨?_, ?_, ?_⟩ <;> decide +kernel

/-- C93 fails: a start that fails calls `before_starting`, for the services of a plug-in server `start`, and nothing calls
    `after_stopping`. -/
theorem before_without_after :
    (run ⟨0, 0, 0, 0, 0, 0⟩ [.create 1 8080, .start 1 { binds := false }, .start 1 {}, .stop 1]).log.map (·.2) =
      [.before 1, .opened 1, .threw 1 .bind, .before 1, .threw 1 .openAgain] := by
  decide +kernel

end Verif.Props.Listen
