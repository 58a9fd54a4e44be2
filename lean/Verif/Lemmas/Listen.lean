import Verif.Spec.Listen
import Verif.Props.AdminRights
import Mathlib.Tactic.Common
import Mathlib.Data.List.Induction
namespace Verif.Listen
open Verif.Spec.Listen
open Verif.AdminRights (Proc)

/-- The server an event belongs to. -/
def Ev.server : Ev → Nat
  | .before n | .opened n | .bound n _ _ | .listens n _ | .closed n | .threw n _ | .started n | .after n => n

def opens (log : List (Nat × Ev)) (n : Nat) : Nat := (log.filter fun e => e.2 = .opened n).length
def closes (log : List (Nat × Ev)) (n : Nat) : Nat := (log.filter fun e => e.2 = .closed n).length

theorem foreign {l l' : List (Nat × Ev)} {n m : Nat} (h : ∀ e ∈ l', e.2.server = n) (hm : m ≠ n) :
    listensAt (l ++ l') m = listensAt l m ∧ broken (l ++ l') m = broken l m ∧ opens (l ++ l') m = opens l m ∧
      closes (l ++ l') m = closes l m := by
  have hf : ∀ ev : Nat → Ev, (∀ k, (ev k).server = k) → l'.filter (fun e => decide (e.2 = ev m)) = [] := by
    intro ev hev
    rw [List.filter_eq_nil_iff]
    intro e he hd
    have := h e he
    rw [of_decide_eq_true hd, hev] at this
    exact hm this
  refine ⟨?_, ?_, ?_, ?_⟩
  · simp only [listensAt, List.foldl_append]
    generalize List.foldl _ none l = r
    induction l' generalizing r with
    | nil => rfl
    | cons e t ih =>
      have he := h e (by simp)
      have ht := ih (fun e he => h e (by simp [he])) (fun ev hev => by
        have := hf ev hev
        rw [List.filter_eq_nil_iff] at this ⊢
        exact fun a ha => this a (by simp [ha]))
      rw [List.foldl_cons, ht]
      obtain ⟨u, e⟩ := e
      cases e <;> simp_all [Ev.server, Ne.symm hm]
  · simp only [broken, List.foldl_append]
    generalize List.foldl _ false l = r
    induction l' generalizing r with
    | nil => rfl
    | cons e t ih =>
      have he := h e (by simp)
      have ht := ih (fun e he => h e (by simp [he])) (fun ev hev => by
        have := hf ev hev
        rw [List.filter_eq_nil_iff] at this ⊢
        exact fun a ha => this a (by simp [ha]))
      rw [List.foldl_cons, ht]
      obtain ⟨u, e⟩ := e
      cases e <;> simp_all [Ev.server, Ne.symm hm]
  · rw [opens, List.filter_append, hf .opened (fun _ => rfl), List.append_nil]; rfl
  · rw [closes, List.filter_append, hf .closed (fun _ => rfl), List.append_nil]; rfl

/-- What the log says about a server, given the server. -/
def Agrees (v : Option Srv) (log : List (Nat × Ev)) (n : Nat) : Prop :=
  match v with
  | none => listensAt log n = none ∧ broken log n = false ∧ opens log n = closes log n
  | some v =>
    if v.listening then
      ∃ e, v.acc = .listening e ∧ listensAt log n = some e ∧ broken log n = false ∧ opens log n = closes log n + 1
    else listensAt log n = none ∧
      (v.acc = .closed ∧ broken log n = false ∧ opens log n = closes log n ∨
       v.acc ≠ .closed ∧ broken log n = true ∧ opens log n = closes log n + 1)

theorem start_server (n : Nat) (os : Os) (p : Proc) (v : Srv) : ∀ e ∈ (start n os p v).1, e.2.server = n := by
  unfold start attempt
  intro e he
  dsimp only at he
  repeat' split at he
  all_goals simp at he
  all_goals rcases he with he | he <;> simp_all [Ev.server]
  all_goals first | (rcases he with he | he | he | he <;> simp [he]) | (rcases he with he | he | he <;> simp [he]) |
    (rcases he with he | he <;> simp [he])

theorem agrees_start {n : Nat} {v : Srv} {log : List (Nat × Ev)} (h : Agrees (some v) log n) (os : Os) (p : Proc) :
    Agrees (some (start n os p v).2.1) (log ++ (start n os p v).1) n := by
  by_cases hl : v.listening = true
  · simpa [start, hl] using h
  · simp only [Agrees, hl] at h
    obtain ⟨h0, h⟩ := h
    unfold start
    rw [if_neg hl]
    generalize withRights p = r
    obtain ⟨a, p'⟩ := r
    dsimp only
    rcases h with ⟨hc, h1, h2⟩ | ⟨hc, h1, h2⟩
    · unfold attempt
      rw [hc]
      dsimp only
      simp only [listensAt, broken, opens, closes] at h0 h1 h2
      obtain ⟨o1, o2, o3, o4, o5, q⟩ := os
      by_cases hp : v.ep.port = 0 <;> cases o1 <;> cases o2 <;> cases o3 <;> cases o4 <;> cases o5
      all_goals
        simp_all [Agrees, listensAt, broken, opens, closes, List.foldl_append, List.filter_append]
    · have : attempt n os v = ([], v, some .openAgain) := by
        unfold attempt
        split
        · contradiction
        · rfl
      rw [this]
      simp only [listensAt, broken, opens, closes] at h0 h1 h2
      simp_all [Agrees, listensAt, broken, opens, closes, List.foldl_append, List.filter_append]

theorem agrees_stop {n : Nat} {v : Srv} {log : List (Nat × Ev)} (h : Agrees (some v) log n) (p : Proc) :
    Agrees (some (stop n p v).2.1) (log ++ (stop n p v).1) n := by
  by_cases hl : v.listening = true
  · simp only [Agrees, hl, if_true] at h
    obtain ⟨e, h0, h1, h2, h3⟩ := h
    simp only [listensAt, broken, opens, closes] at h1 h2 h3
    simp [stop, hl, Agrees, listensAt, broken, opens, closes, List.foldl_append, List.filter_append, h3]
  · simpa [stop, hl] using h

theorem agrees_destroy {n : Nat} {v : Srv} {log : List (Nat × Ev)} (h : Agrees (some v) log n) (p : Proc) :
    Agrees none (log ++ destroy n p v) n := by
  unfold destroy
  split
  · rename_i hc
    simp only [Agrees, hc] at h
    split at h
    · obtain ⟨e, h, _⟩ := h; cases h
    · simp at h
      simp [Agrees, h]
  · rename_i hc
    simp only [Agrees] at h
    have hc' : v.acc ≠ .closed := fun h => hc h
    split at h
    · obtain ⟨e, h0, h1, h2, h3⟩ := h
      simp only [listensAt, broken, opens, closes] at h1 h2 h3
      simp [Agrees, listensAt, broken, opens, closes, List.foldl_append, List.filter_append, h3]
    · simp [hc'] at h
      obtain ⟨h1, h2, h3⟩ := h
      simp only [listensAt, broken, opens, closes] at h1 h2 h3
      simp [Agrees, listensAt, broken, opens, closes, List.foldl_append, List.filter_append, h3]

theorem stop_server (n : Nat) (p : Proc) (v : Srv) : ∀ e ∈ (stop n p v).1, e.2.server = n := by
  unfold stop
  split <;> simp [Ev.server]

theorem destroy_server (n : Nat) (p : Proc) (v : Srv) : ∀ e ∈ destroy n p v, e.2.server = n := by
  unfold destroy
  split <;> simp [Ev.server]

theorem agrees_foreign {n m : Nat} {v : Option Srv} {log l : List (Nat × Ev)} (h : Agrees v log m) (hl : ∀ e ∈ l, e.2.server = n)
    (hm : m ≠ n) : Agrees v (log ++ l) m := by
  obtain ⟨h1, h2, h3, h4⟩ := foreign (l := log) hl hm
  simpa only [Agrees, h1, h2, h3, h4] using h

theorem agrees_update {w : World} (h : ∀ m, Agrees (w.srv m) w.log m) (n : Nat)
    (f : Proc → Srv → List (Nat × Ev) × Srv × Proc) (hf : ∀ v, ∀ e ∈ (f w.proc v).1, e.2.server = n)
    (ha : ∀ v, Agrees (some v) w.log n → Agrees (some (f w.proc v).2.1) (w.log ++ (f w.proc v).1) n) (m : Nat) :
    Agrees ((w.update n f).srv m) (w.update n f).log m := by
  unfold World.update
  split
  · exact h m
  · rename_i v hv
    dsimp only
    by_cases hm : m = n
    · subst hm
      rw [if_pos rfl]
      exact ha v (hv ▸ h m)
    · rw [if_neg hm]
      exact agrees_foreign (h m) (hf v) hm

theorem agrees_create {w : World} (h : ∀ m, Agrees (w.srv m) w.log m) (n : Nat) (e : Endpoint) (m : Nat) :
    Agrees ((w.create n e).srv m) (w.create n e).log m := by
  unfold World.create
  split
  · rename_i hn
    dsimp only
    split
    · rename_i hm
      subst hm
      have := h m
      rw [hn] at this
      simp only [Agrees] at this
      simp [Agrees, this]
    · exact h m
  · exact h m

theorem agrees_set {w : World} (h : ∀ m, Agrees (w.srv m) w.log m) (n : Nat) (f : Endpoint → Endpoint) (m : Nat) :
    Agrees ((w.set n f).srv m) (w.set n f).log m := by
  refine agrees_update h n _ (fun v e he => by simp at he) (fun v hv => ?_) m
  simpa [Agrees] using hv

theorem agrees_step {w : World} (h : ∀ m, Agrees (w.srv m) w.log m) (op : Op) (m : Nat) :
    Agrees ((w.step op).srv m) (w.step op).log m := by
  cases op with
  | create n p => exact agrees_create h n _ m
  | createAt n e => exact agrees_create h n _ m
  | setPort n p => exact agrees_set h n _ m
  | setAddress n f a => exact agrees_set h n _ m
  | setEndpoint n e => exact agrees_set h n _ m
  | start n os => exact agrees_update h n _ (fun v => start_server n os _ v) (fun v hv => agrees_start hv os _) m
  | stop n => exact agrees_update h n _ (fun v => stop_server n _ v) (fun v hv => agrees_stop hv _) m
  | destroy n =>
    simp only [World.step]
    split
    · exact h m
    · rename_i v hv
      dsimp only
      by_cases hm : m = n
      · subst hm
        rw [if_pos rfl]
        exact agrees_destroy (hv ▸ h m) _
      · rw [if_neg hm]
        exact agrees_foreign (h m) (destroy_server n _ v) hm

theorem run_append (p : Proc) (a b : List Op) : run p (a ++ b) = b.foldl World.step (run p a) := by
  simp [run]

theorem run_concat (p : Proc) (a : List Op) (op : Op) : run p (a ++ [op]) = (run p a).step op := by
  simp [run]

theorem agrees (p : Proc) (ops : List Op) (n : Nat) : Agrees ((run p ops).srv n) (run p ops).log n := by
  induction ops using List.reverseRecOn generalizing n with
  | nil => simp [run, Agrees, listensAt, broken, opens, closes]
  | append_singleton ops op ih => rw [run_concat]; exact agrees_step ih op n

end Verif.Listen
