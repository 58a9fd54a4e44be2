import Verif.Lemmas.PluginThreads
/-
C77: a plug-in manager used by several threads at once.
-/
namespace Verif.Props.PluginThreads
open Verif.PluginThreads Verif.Plugins Spec.PluginThreads
open Verif.Spec.Plugins (registered destroyed)

private theorem order_of {R : Mgr → Req → Ans → Mgr → Prop} {tr : List Act} {s : PSt} {lin : List (Nat × Req × Ans)}
    (h : PluginThreads.run tr = some s) (hl : Lin R tr s lin) : Order R tr s.sh.mgr lin := by
  have hb := base h
  refine ⟨?_, ?_, hl.once, hl.order, hl.legal⟩
  · intro i a hr
    cases hc : s.calls i with
    | none => exact absurd ⟨a, hr⟩ (hb.uncalled i hc).2
    | some c =>
      have := ((hb.called i c.1 c.2 hc).2 a).1 hr
      exact ⟨c.1, (hl.mem i c.1 a).2 ⟨c.2, hc, by rw [this]; simp [decided]⟩⟩
  · intro e he
    obtain ⟨pc, hc, _⟩ := (hl.mem e.1 e.2.1 e.2.2).1 he
    exact ((hb.called _ _ _ hc).1 _).2 rfl

/-! ### Calls happen one after another -/

/-- C77 in part: whatever the threads do, there is an order in which the calls could have been made one after another with
    the same results, except that a `load` of an identifier in use may succeed without registering its object. (Missing:
    without this exception, see `loads_both_succeed`.) -/
theorem linearizable_partial {tr : List Act} {s : PSt} (h : PluginThreads.run tr = some s) :
    ∃ lin, Order Lax tr s.sh.mgr lin := by
  obtain ⟨lin, hl⟩ := lin_lax h
  exact ⟨lin, order_of h hl⟩

/-- C77: if calls that register objects for the same identifier do not overlap, there is an order in which the calls could
    have been made one after another with the same results. -/
theorem linearizable {tr : List Act} {s : PSt} (h : PluginThreads.run tr = some s) (hone : OneEach tr) :
    ∃ lin, Order Strict tr s.sh.mgr lin := by
  obtain ⟨lin, hl⟩ := lin_strict h hone
  exact ⟨lin, order_of h hl⟩

/-! ### Objects -/

/-- C77: an object handed over by one call is destroyed at most once, and not while it is registered, however many threads
    remove, replace and clear. -/
theorem destroyed_once {tr : List Act} {s : PSt} (h : PluginThreads.run tr = some s) (ho : HandedOnce tr) (obj : Nat) :
    destroyed s.sh.mgr obj ≤ 1 ∧ (0 < registered s.sh.mgr obj → destroyed s.sh.mgr obj = 0) := by
  have := at_most_once h ho obj
  constructor
  · omega
  · intro _; omega

/-- C77 in part: the function given to `run` for all objects is called with live objects only; so is that given to `run`
    for one, unless a call of `remove`, `replace` or `clear` overlaps with it. (Missing: in that case too, see
    `run_uses_destroyed`.) -/
theorem uses_alive_partial {tr : List Act} {s : PSt} (h : PluginThreads.run tr = some s) (ho : HandedOnce tr) {i obj : Nat}
    (hu : Uses s i obj) : destroyed s.sh.mgr obj = 0 ∨ (∃ id, .call i (.run id) ∈ tr) ∧
      ∃ k kreq, .call k kreq ∈ tr ∧ Req.destroys kreq = true ∧ ¬Before tr k i := by
  have hU := using_ h
  have alive : Reg s.sh.mgr obj → destroyed s.sh.mgr obj = 0 := fun hr => (destroyed_once h ho obj).2 (reg_pos hr)
  obtain ⟨req, hc | ⟨ran, rest, hc⟩⟩ := hu
  · rcases hU.one i req obj hc with hr | hk
    · exact .inl (alive hr)
    · refine .inr ⟨?_, hk⟩
      obtain ⟨id, rfl⟩ := calling_run h i req obj hc
      exact ⟨id, (((base h).called i _ _ hc).1 _).2 rfl⟩
  · exact .inl (alive (hU.all i req ran _ hc obj List.mem_cons_self))

/-! ### No call waits for ever -/

/-- C77: while a call has not returned, some call can make its next step or return, if the functions given to `run` do not
    call the manager. -/
theorem progress_partial {tr : List Act} {s : PSt} (h : PluginThreads.run tr = some s)
    (hcb : ∀ i, .call i (.runAll true) ∉ tr) {i : Nat} (hc : Called tr i) (hr : ¬Returned tr i) :
    ∃ k x, (x = .step k ∨ ∃ v, x = .ret k v) ∧ (PluginThreads.run (tr ++ [x])).isSome = true := by
  have hb := base h
  have moves : ∀ k req pc, s.calls k = some (req, pc) → (∀ v, pc ≠ .returned v) → (pc.holds = true ∨ s.sh.lock = none) →
      ∃ k x, (x = .step k ∨ ∃ v, x = .ret k v) ∧ (PluginThreads.run (tr ++ [x])).isSome = true := by
    intro k req pc hk hnr hl
    have hne : req ≠ .runAll true := fun e => hcb k (e ▸ ((hb.called k _ _ hk).1 _).2 rfl)
    rcases own_enabled k s.sh req pc hl hne (fits h k req pc hk) with ⟨v, rfl | rfl⟩ | he
    · refine ⟨k, .ret k v, .inr ⟨v, rfl⟩, ?_⟩
      rw [Option.isSome_iff_exists]
      exact ⟨_, (run_snoc ..).2 ⟨s, h, by simp only [St.step, hk, if_true]; rfl⟩⟩
    · exact absurd rfl (hnr v)
    · refine ⟨k, .step k, .inl rfl, ?_⟩
      obtain ⟨⟨sh, pc'⟩, ho⟩ := Option.isSome_iff_exists.1 he
      rw [Option.isSome_iff_exists]
      exact ⟨_, (run_snoc ..).2 ⟨s, h, by simp only [St.step, hk, ho]; rfl⟩⟩
  cases hci : s.calls i with
  | none => exact absurd hc (hb.uncalled i hci).1
  | some c =>
    cases hl : s.sh.lock with
    | none => exact moves i c.1 c.2 hci (fun v hv => hr ⟨v, ((hb.called i c.1 c.2 hci).2 v).2 hv⟩) (.inr hl)
    | some k =>
      obtain ⟨req, pc, hk, hh⟩ := (hb.lock k).1 hl
      exact moves k req pc hk (fun v hv => by subst hv; cases hh) (.inl hh)

/-! ### Runs -/

/-- Two loads, a look-up and a removal that overlap. -/
def busy : List Act :=
  [.call 0 (.load (b! "/a") (b! "Echo") true 10), .call 1 (.load (b! "/b") (b! "Echo") true 11), .step 0, .step 1, .step 1,
   .call 2 (.find (b! "/b/x")), .step 1, .step 0, .step 0, .step 2, .call 3 (.remove (b! "/a")), .ret 0 .ok, .step 3,
   .ret 1 .ok, .ret 2 (.object (some 11)), .ret 3 .ok, .call 4 (.runAll false), .call 5 (.get (b! "/a")), .step 4, .step 4, .step 4,
   .step 5, .ret 4 (.ran [11]), .ret 5 (.object none)]

example : (PluginThreads.run busy).isSome = true := by decide +kernel
example : ((PluginThreads.run busy).map fun s => s.sh.mgr.destroyed) = some [(10, .library (b! "Echo"))] := by decide +kernel
/-- While the function of call 4 runs, call 5 waits. -/
example : (PluginThreads.run (busy.take 19 ++ [.step 5])).isSome = false ∧ (PluginThreads.run (busy.take 19)).isSome = true := by
  decide +kernel
example : HandedOnce busy := by
  intro i k ri rk obj h1 h2 h3 h4
  simp [busy] at h1 h2
  rcases h1 with ⟨rfl, rfl⟩ | ⟨rfl, rfl⟩ | ⟨rfl, rfl⟩ | ⟨rfl, rfl⟩ | ⟨rfl, rfl⟩ | ⟨rfl, rfl⟩ <;> simp [Req.hands] at h3 <;>
  rcases h2 with ⟨rfl, rfl⟩ | ⟨rfl, rfl⟩ | ⟨rfl, rfl⟩ | ⟨rfl, rfl⟩ | ⟨rfl, rfl⟩ | ⟨rfl, rfl⟩ <;> simp [Req.hands] at h4 <;> omega
example : OneEach busy := by
  rintro a b hab i k ri rk id h1 h2 - - h3 h4
  have g1 : .call i ri ∈ busy := by rw [hab]; exact List.mem_append_left _ h1
  have g2 : .call k rk ∈ busy := by rw [hab]; exact List.mem_append_left _ h2
  simp [busy] at g1 g2
  rcases g1 with ⟨rfl, rfl⟩ | ⟨rfl, rfl⟩ | ⟨rfl, rfl⟩ | ⟨rfl, rfl⟩ | ⟨rfl, rfl⟩ | ⟨rfl, rfl⟩ <;> simp [Req.registers] at h3 <;>
  rcases g2 with ⟨rfl, rfl⟩ | ⟨rfl, rfl⟩ | ⟨rfl, rfl⟩ | ⟨rfl, rfl⟩ | ⟨rfl, rfl⟩ | ⟨rfl, rfl⟩ <;> simp [Req.registers] at h4 <;>
  first | rfl | (subst h3; simp at h4)

/-! ### Findings -/

/-- Two threads load plug-ins for the same identifier; both look for it before either registers its object. -/
def twoLoads : List Act :=
  [.call 0 (.load (b! "/a") (b! "Echo") true 10), .call 1 (.load (b! "/a") (b! "Hello") true 11), .step 0, .step 1, .step 0, .step 1,
   .step 0, .step 1, .ret 0 .ok, .ret 1 .ok]

/-- C77 fails as stated: both loads succeed, but the second object is not registered and never destroyed, not even by the
    destructor; no order of the calls explains this. -/
theorem loads_both_succeed :
    ∃ s, PluginThreads.run twoLoads = some s ∧ registered s.sh.mgr 11 = 0 ∧ destroyed (close s.sh.mgr) 11 = 0 ∧
      ∀ m lin, ¬Order Strict twoLoads m lin := by
  have hs : (PluginThreads.run twoLoads).isSome = true := by decide +kernel
  obtain ⟨s, hs⟩ := Option.isSome_iff_exists.1 hs
  refine ⟨s, hs, ?_, ?_, ?_⟩
  · have : (PluginThreads.run twoLoads).map (fun s => registered s.sh.mgr 11) = some 0 := by decide +kernel
    rw [hs] at this; simpa using this
  · have : (PluginThreads.run twoLoads).map (fun s => destroyed (close s.sh.mgr) 11) = some 0 := by decide +kernel
    rw [hs] at this; simpa using this
  · intro m lin hl
    obtain ⟨r0, h0⟩ := hl.answered 0 .ok (by simp [twoLoads])
    obtain ⟨r1, h1⟩ := hl.answered 1 .ok (by simp [twoLoads])
    have c : ∀ e ∈ lin, (e.1 = 0 ∧ e.2.1 = .load (b! "/a") (b! "Echo") true 10) ∨
        (e.1 = 1 ∧ e.2.1 = .load (b! "/a") (b! "Hello") true 11) := by
      intro e he
      have := hl.called e he
      simp [twoLoads] at this
      exact this
    -- after the first load every further one fails
    have reg : ∀ (l : List (Nat × Req × Ans)) (m0 : Mgr), (m0.map.lookup (b! "/a")).isSome = true → Legal Strict m0 l m →
        (∀ e ∈ l, e ∈ lin) → ∀ e ∈ l, e.2.2 = .duplicate := by
      intro l
      induction l with
      | nil => nofun
      | cons x l ih =>
        rintro m0 hm ⟨m1, hx, hrest⟩ hsub e he
        obtain ⟨w, hw⟩ := Option.isSome_iff_exists.1 hm
        have hxs : x.2.2 = .duplicate ∧ m1 = m0 := by
          unfold Strict at hx
          rcases c x (hsub x List.mem_cons_self) with ⟨_, hr⟩ | ⟨_, hr⟩ <;>
            (rw [hr] at hx; simp [seq, step, hw, ofRes] at hx; exact ⟨hx.1.symm, hx.2.symm⟩)
        rcases List.mem_cons.1 he with rfl | he
        · exact hxs.1
        · exact ih m1 (by rw [hxs.2]; exact hm) hrest (fun y hy => hsub y (List.mem_cons_of_mem _ hy)) e he
    cases hlin : lin with
    | nil => rw [hlin] at h0; cases h0
    | cons x l =>
      have hleg := hl.legal
      rw [hlin] at hleg
      obtain ⟨m1, hx, hrest⟩ := hleg
      have hm1 : (m1.map.lookup (b! "/a")).isSome = true := by
        unfold Strict at hx
        rcases c x (by rw [hlin]; exact List.mem_cons_self) with ⟨_, hr⟩ | ⟨_, hr⟩ <;>
          (rw [hr] at hx; have : _ = m1 := congrArg Prod.snd hx; rw [← this]; decide +kernel)
      have later := reg l m1 hm1 hrest (fun y hy => by rw [hlin]; exact List.mem_cons_of_mem _ hy)
      rw [hlin] at h0 h1
      rcases List.mem_cons.1 h0 with e0 | e0
      · rcases List.mem_cons.1 h1 with e1 | e1
        · rw [← e0] at e1; cases e1
        · cases later _ e1
      · cases later _ e0

/-- `run` for one object while another thread removes it. -/
def runWhileRemoved : List Act :=
  [.call 0 (.add (b! "/a") 10), .step 0, .ret 0 .ok, .call 1 (.run (b! "/a")), .step 1, .call 2 (.remove (b! "/a")), .step 2, .ret 2 .ok]

/-- C77 fails as stated: the function is called with an object that has been destroyed. -/
theorem run_uses_destroyed :
    ∃ s, PluginThreads.run runWhileRemoved = some s ∧ Uses s 1 10 ∧ destroyed s.sh.mgr 10 = 1 := by
  have hs : (PluginThreads.run runWhileRemoved).isSome = true := by decide +kernel
  obtain ⟨s, hs⟩ := Option.isSome_iff_exists.1 hs
  refine ⟨s, hs, ⟨.run (b! "/a"), .inl ?_⟩, ?_⟩
  · have : (PluginThreads.run runWhileRemoved).bind (·.calls 1) = some (.run (b! "/a"), .calling 10) := by decide +kernel
    rw [hs] at this; exact this
  · have : (PluginThreads.run runWhileRemoved).map (fun s => destroyed s.sh.mgr 10) = some 1 := by decide +kernel
    rw [hs] at this; simpa using this

/-- C77: `load` reads the map without the mutex while another thread can change it. -/
theorem load_race : ∃ tr s, PluginThreads.run tr = some s ∧
    s.calls 0 = some (.load (b! "/a") (b! "Echo") true 10, .start) ∧ s.calls 1 = some (.add (b! "/b") 11, .start) ∧
    (own 0 s.sh (.load (b! "/a") (b! "Echo") true 10) .start).isSome = true ∧
    ∃ sh pc, own 1 s.sh (.add (b! "/b") 11) .start = some (sh, pc) ∧ sh.mgr.map ≠ s.sh.mgr.map :=
  ⟨[.call 0 (.load (b! "/a") (b! "Echo") true 10), .call 1 (.add (b! "/b") 11)], _, rfl, rfl, rfl, rfl, _, _, rfl, by decide +kernel⟩

/-- `run` for all objects with a function that calls the manager. -/
def callsBack : List Act := [.call 0 (.add (b! "/a") 10), .step 0, .ret 0 .ok, .call 1 (.runAll true), .step 1]

/-- C77 fails as stated: a function given to `run` for all objects that calls the manager waits for a mutex that its own
    thread holds. The call never returns, and neither does any call of another thread that needs the mutex. -/
theorem callback_deadlock {more : List Act} {s : PSt} (h : PluginThreads.run (callsBack ++ more) = some s) :
    ¬Returned (callsBack ++ more) 1 ∧ ∀ k id a, .call k (.get id) ∈ more → .ret k a ∉ callsBack ++ more := by
  have key : ∀ more s, PluginThreads.run (callsBack ++ more) = some s →
      s.calls 1 = some (.runAll true, .each [] [10]) ∧ s.sh.lock = some 1 ∧
        ∀ k id, .call k (.get id) ∈ more → s.calls k = some (.get id, .start) := by
    intro more
    induction more using List.reverseRecOn with
    | nil =>
      intro s hs
      rw [List.append_nil] at hs
      have h1 : (PluginThreads.run callsBack).bind (·.calls 1) = some (.runAll true, .each [] [10]) := by decide +kernel
      have h2 : (PluginThreads.run callsBack).map (·.sh.lock) = some (some 1) := by decide +kernel
      rw [hs] at h1 h2
      exact ⟨h1, by simpa using h2, nofun⟩
    | append_singleton more x ih =>
      intro s' hs'
      rw [← List.append_assoc] at hs'
      obtain ⟨s, hs, hx⟩ := (run_snoc ..).1 hs'
      obtain ⟨i1, i2, i3⟩ := ih s hs
      have hlk : s.sh.lock.isSome = true := by rw [i2]; rfl
      cases steps_of hx with
      | call hc =>
        rename_i k r
        have hk1 : 1 ≠ k := fun e => by rw [← e, i1] at hc; cases hc
        refine ⟨by rw [set_other _ _ _ hk1]; exact i1, i2, ?_⟩
        intro j id hj
        simp only [List.mem_append, List.mem_singleton, Act.call.injEq] at hj
        rcases hj with hj | ⟨rfl, rfl⟩
        · have := i3 j id hj
          by_cases hjk : j = k
          · subst hjk; rw [this] at hc; cases hc
          · rw [set_other _ _ _ hjk]; exact this
        · exact set_self ..
      | ret hc =>
        rename_i k r v
        have hk1 : 1 ≠ k := fun e => by rw [← e, i1] at hc; cases hc
        refine ⟨by rw [set_other _ _ _ hk1]; exact i1, i2, ?_⟩
        intro j id hj
        simp only [List.mem_append, List.mem_singleton, reduceCtorEq, or_false] at hj
        have := i3 j id hj
        by_cases hjk : j = k
        · subst hjk; rw [this] at hc; cases hc
        · rw [set_other _ _ _ hjk]; exact this
      | step hc ho =>
        rename_i k r pc sh pc'
        have hk1 : 1 ≠ k := fun e => by rw [← e, i1] at hc; cases hc; cases ho
        have hhold : pc.holds = false := by
          by_contra hcon
          have := ((base hs).lock k).2 ⟨_, _, hc, by simpa using hcon⟩
          rw [i2] at this
          exact hk1 (by simpa using this)
        refine ⟨by rw [set_other _ _ _ hk1]; exact i1, ?_, ?_⟩
        · rw [set_sh]
          rcases (own_keeps ho).2.2 with ⟨e, _⟩ | ⟨e, _⟩ | ⟨_, _, e⟩
          · rw [e]; exact i2
          · rw [i2] at e; cases e
          · rw [hhold] at e; cases e
        · intro j id hj
          simp only [List.mem_append, List.mem_singleton, reduceCtorEq, or_false] at hj
          have := i3 j id hj
          by_cases hjk : j = k
          · subst hjk
            rw [this] at hc; cases hc
            simp [own, hlk] at ho
          · rw [set_other _ _ _ hjk]; exact this
  obtain ⟨k1, _, k3⟩ := key more s h
  have hb := base h
  refine ⟨?_, ?_⟩
  · rintro ⟨v, hv⟩
    have := ((hb.called 1 _ _ k1).2 v).1 hv
    cases this
  · intro k id a hk hr
    have := ((hb.called k _ _ (k3 k id hk)).2 a).1 hr
    cases this

end Verif.Props.PluginThreads
