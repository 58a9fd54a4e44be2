import Verif.Model.HelloServer
import Verif.Lemmas.Digits
/-
Lemmas for `Props/HelloServer`.
-/
namespace Verif.HelloServer
open Verif Verif.TcpServer

/-- What holds of the `tcp::server` in this program. -/
structure Plain (t : TcpServer.St) : Prop where
  alive : t.dead = false
  noOrphan : ∀ c, t.status c ≠ .orphan
  fresh : ∀ c, t.next ≤ c → t.status c = .absent

theorem prune_eq {t : TcpServer.St} (h : ∀ c, t.status c ≠ .orphan) : t.prune = t := by
  have h1 : (t.pool.filter fun c => t.status c ≠ .orphan) = t.pool := List.filter_eq_self.2 fun c _ => by simp [h c]
  have h2 : (fun c => if t.status c = .orphan then Status.finished else t.status c) = t.status := by
    funext c
    rw [if_neg (h c)]
  unfold TcpServer.St.prune
  rw [h1, h2]

/-- What may become of connection `c` in a step that is not its user's. -/
structure Moves (failed : Prop) (x y : Status) : Prop where
  serving : y = .serving ↔ x = .serving
  finished : y = .finished → x = .finished ∨ failed
  stays : x = .finished → y = .finished
  absent : y = .absent → x = .absent

theorem Moves.refl (f : Prop) (x : Status) : Moves f x x := ⟨Iff.rfl, fun h => .inl h, fun h => h, fun h => h⟩

theorem listen_plain {t : TcpServer.St} (h : Plain t) : Plain t.listen ∧ ∀ c, Moves False (t.status c) (t.listen.status c) := by
  unfold TcpServer.St.listen
  split
  · rw [prune_eq h.noOrphan]
    dsimp only
    refine ⟨⟨h.alive, fun c => ?_, fun c hc => ?_⟩, fun c => ?_⟩
    · dsimp only [upd]
      split
      · nofun
      · exact h.noOrphan c
    · have hc : t.next + 1 ≤ c := hc
      dsimp only [upd]
      rw [if_neg (by omega)]
      exact h.fresh c (by omega)
    · dsimp only [upd]
      split
      · rename_i hc
        subst hc
        rw [h.fresh t.next (Nat.le_refl _)]
        exact ⟨by simp, nofun, nofun, nofun⟩
      · exact .refl _ _
  · exact ⟨h, fun c => .refl _ _⟩

theorem tcp_plain {t t' : TcpServer.St} {a : TcpServer.Act} (h : Plain t) (ha : own a = false) (hs : t.step a = some t') :
    Plain t' ∧ ∀ c, Moves (a = .fail c) (t.status c) (t'.status c) := by
  have setOf : ∀ (c : Nat) (v x : Status), t.status c = x → x ≠ .absent → v ≠ .orphan → Plain { t with status := upd t.status c v } := by
    intro c v x hx hxa hv
    refine ⟨h.alive, fun d => ?_, fun d hd => ?_⟩
    · dsimp only [upd]
      split
      · exact hv
      · exact h.noOrphan d
    · dsimp only [upd]
      rw [if_neg, h.fresh d hd]
      rintro rfl
      rw [h.fresh d hd] at hx
      exact hxa hx.symm
  have weak : ∀ {f : Prop} {x y}, Moves False x y → Moves f x y :=
    fun m => ⟨m.serving, fun e => (m.finished e).elim .inl False.elim, m.stays, m.absent⟩
  cases a with
  | serve c => cases ha
  | finish c k n => cases ha
  | drop c => cases ha
  | start =>
    simp only [TcpServer.St.step, h.alive, Bool.false_eq_true, if_false] at hs
    split at hs <;> cases hs
    · exact ⟨h, fun c => .refl _ _⟩
    · exact ⟨⟨rfl, h.noOrphan, h.fresh⟩, fun c => .refl _ _⟩
  | startListen =>
    simp only [TcpServer.St.step] at hs
    split at hs <;> cases hs
    obtain ⟨h1, h2⟩ := listen_plain h
    exact ⟨⟨h1.alive, h1.noOrphan, h1.fresh⟩, fun c => weak (h2 c)⟩
  | accept c ok =>
    simp only [TcpServer.St.step] at hs
    split at hs <;> cases hs
    rename_i hc
    refine ⟨setOf c _ _ hc nofun nofun, fun d => ?_⟩
    dsimp only [upd]
    split
    · rename_i hd
      subst hd
      rw [hc]
      exact ⟨by simp, nofun, nofun, nofun⟩
    · exact .refl _ _
  | listen c =>
    simp only [TcpServer.St.step] at hs
    split at hs
    · rename_i ok hc
      rw [if_neg (by simp [h.alive])] at hs
      cases hs
      obtain ⟨h1, h2⟩ := listen_plain (setOf c (.accepted ok false) _ hc nofun nofun)
      refine ⟨h1, fun d => ?_⟩
      have m := h2 d
      dsimp only [upd] at m
      split at m
      · rename_i hd
        subst hd
        rw [hc]
        exact ⟨by simp [m.serving], fun e => by simpa using m.finished e, nofun, fun e => nomatch m.absent e⟩
      · exact weak m
    · cases hs
  | fail c =>
    simp only [TcpServer.St.step] at hs
    split at hs <;> cases hs
    rename_i hc
    have e : t.finish c false false = t.remove c := by simp [TcpServer.St.finish]
    rw [e]
    have p := setOf c .finished _ hc.1 nofun nofun
    refine ⟨⟨p.alive, p.noOrphan, p.fresh⟩, fun d => ?_⟩
    dsimp only [TcpServer.St.remove, upd]
    split
    · rename_i hd
      subst hd
      rw [hc.1]
      exact ⟨by simp, fun _ => .inr rfl, nofun, nofun⟩
    · exact .refl _ _
  | stop =>
    simp only [TcpServer.St.step, h.alive, Bool.false_eq_true, if_false] at hs
    split at hs <;> cases hs <;> exact ⟨⟨rfl, h.noOrphan, h.fresh⟩, fun c => .refl _ _⟩
  | stopLoop =>
    simp only [TcpServer.St.step, prune_eq h.noOrphan] at hs
    split at hs
    · cases hs
    · split at hs <;> cases hs
      · exact ⟨⟨h.alive, h.noOrphan, h.fresh⟩, fun c => .refl _ _⟩
      · exact ⟨h, fun c => .refl _ _⟩

theorem serve_plain {t t' : TcpServer.St} {c : Nat} (h : Plain t) (hs : t.step (.serve c) = some t') :
    Plain t' ∧ t.status c = .accepted true false ∧ t'.status = upd t.status c .serving := by
  simp only [TcpServer.St.step] at hs
  split at hs <;> cases hs
  rename_i hc
  refine ⟨⟨h.alive, fun d => ?_, fun d hd => ?_⟩, hc, rfl⟩
  · dsimp only [upd]
    split
    · nofun
    · exact h.noOrphan d
  · dsimp only [upd]
    rw [if_neg, h.fresh d hd]
    rintro rfl
    rw [h.fresh d hd] at hc
    cases hc

theorem finish_plain {t t' : TcpServer.St} {c : Nat} (h : Plain t) (hs : t.step (.finish c false false) = some t') :
    Plain t' ∧ t.status c = .serving ∧ t'.status = upd t.status c .finished := by
  simp only [TcpServer.St.step] at hs
  split at hs <;> cases hs
  rename_i hc
  have e : t.finish c false false = t.remove c := by simp [TcpServer.St.finish]
  rw [e]
  refine ⟨⟨h.alive, fun d => ?_, fun d hd => ?_⟩, hc.1, rfl⟩
  · dsimp only [TcpServer.St.remove, upd]
    split
    · nofun
    · exact h.noOrphan d
  · dsimp only [TcpServer.St.remove, upd]
    rw [if_neg, h.fresh d hd]
    rintro rfl
    rw [h.fresh d hd] at hc
    cases hc.1

/-- After the steps `as`. -/
structure Inv (s : St) (as : List Act) : Prop where
  plain : Plain s.tcp
  out : ∀ c, s.out c = message.take (s.pos c)
  pos : ∀ c, s.pos c ≤ message.length
  early : ∀ c, s.tcp.status c ≠ .serving → s.tcp.status c ≠ .finished → s.pos c = 0
  late : ∀ c, s.tcp.status c = .finished → s.pos c = message.length ∨ .broken c ∈ as ∨ .server (.fail c) ∈ as

theorem inv_step {s s' : St} {as : List Act} {a : Act} (h : Inv s as) (hs : s.step a = some s') : Inv s' (as ++ [a]) := by
  have fin : ∀ (c : Nat) (t : TcpServer.St) (ha : s.pos c = message.length ∨ a = .broken c), s.tcp.step (.finish c false false) = some t →
      Inv { s with tcp := t } (as ++ [a]) := by
    intro c t ha ht
    obtain ⟨h1, h2, h3⟩ := finish_plain h.plain ht
    refine ⟨h1, h.out, h.pos, fun d hd hd' => ?_, fun d hd => ?_⟩
    · dsimp only at hd hd' ⊢
      rw [h3] at hd hd'
      dsimp only [upd] at hd hd'
      split at hd'
      · exact absurd rfl hd'
      · rename_i hne
        rw [if_neg hne] at hd
        exact h.early d hd hd'
    · dsimp only at hd ⊢
      rw [h3] at hd
      dsimp only [upd] at hd
      split at hd
      · rename_i e
        subst e
        exact ha.imp id fun e => .inl (by rw [e]; simp)
      · rcases h.late d hd with e | e | e
        · exact .inl e
        · exact .inr (.inl (List.mem_append_left _ e))
        · exact .inr (.inr (List.mem_append_left _ e))
  cases a with
  | server a =>
    simp only [St.step] at hs
    split at hs
    · cases hs
    · rename_i ho
      obtain ⟨t, ht, rfl⟩ := Option.map_eq_some_iff.1 hs
      obtain ⟨h1, h2⟩ := tcp_plain h.plain (by simpa using ho) ht
      refine ⟨h1, h.out, h.pos, fun c hc hc' => ?_, fun c hc => ?_⟩
      · exact h.early c (fun e => hc ((h2 c).serving.2 e)) fun e => hc' ((h2 c).stays e)
      · rcases (h2 c).finished hc with e | e
        · rcases h.late c e with e | e | e
          · exact .inl e
          · exact .inr (.inl (List.mem_append_left _ e))
          · exact .inr (.inr (List.mem_append_left _ e))
        · exact .inr (.inr (by rw [e]; simp))
  | serve c =>
    obtain ⟨t, ht, rfl⟩ := Option.map_eq_some_iff.1 hs
    obtain ⟨h1, h2, h3⟩ := serve_plain h.plain ht
    refine ⟨h1, h.out, h.pos, fun d hd hd' => ?_, fun d hd => ?_⟩
    · dsimp only at hd hd' ⊢
      rw [h3] at hd hd'
      dsimp only [upd] at hd hd'
      split at hd
      · exact absurd rfl hd
      · rename_i hne
        rw [if_neg hne] at hd'
        exact h.early d hd hd'
    · dsimp only at hd ⊢
      rw [h3] at hd
      dsimp only [upd] at hd
      split at hd
      · cases hd
      · rcases h.late d hd with e | e | e
        · exact .inl e
        · exact .inr (.inl (List.mem_append_left _ e))
        · exact .inr (.inr (List.mem_append_left _ e))
  | take c n =>
    simp only [St.step] at hs
    split at hs <;> cases hs
    rename_i hc
    refine ⟨h.plain, fun d => ?_, fun d => ?_, fun d hd hd' => ?_, fun d hd => ?_⟩
    · dsimp only
      split
      · rw [h.out c, List.take_add]
      · exact h.out d
    · dsimp only
      split
      · exact hc.2.2
      · exact h.pos d
    · dsimp only at hd hd' ⊢
      split
      · rename_i e
        rw [e] at hd
        exact absurd hc.1 hd
      · exact h.early d hd hd'
    · dsimp only at hd ⊢
      split
      · rename_i e
        rw [e, hc.1] at hd
        cases hd
      · rcases h.late d hd with e | e | e
        · exact .inl e
        · exact .inr (.inl (List.mem_append_left _ e))
        · exact .inr (.inr (List.mem_append_left _ e))
  | broken c =>
    simp only [St.step] at hs
    split at hs
    · obtain ⟨t, ht, rfl⟩ := Option.map_eq_some_iff.1 hs
      exact fin c t (.inr rfl) ht
    · cases hs
  | done c =>
    simp only [St.step] at hs
    split at hs
    · rename_i hp
      obtain ⟨t, ht, rfl⟩ := Option.map_eq_some_iff.1 hs
      exact fin c t (.inl hp) ht
    · cases hs

theorem inv_run {as : List Act} : ∀ {s s' : St} {before : List Act}, Inv s before → s.run as = some s' → Inv s' (before ++ as) := by
  induction as with
  | nil =>
    intro s s' before h hr
    cases hr
    rwa [List.append_nil]
  | cons a as ih =>
    intro s s' before h hr
    unfold St.run at hr
    split at hr
    · cases hr
    · rename_i s1 e
      have := ih (inv_step h e) hr
      rwa [List.append_assoc] at this

theorem inv_start : Inv {} [] :=
  ⟨⟨rfl, nofun, fun _ _ => rfl⟩, fun _ => rfl, fun _ => Nat.zero_le _, fun _ _ _ => rfl, nofun⟩

theorem digits_all {p : UInt8 → Bool} {l : Bytes} (h : ∀ c ∈ l, p c = true) : l.takeWhile p = l := by
  induction l with
  | nil => rfl
  | cons a l ih => rw [List.takeWhile_cons_of_pos (h a List.mem_cons_self), ih fun c hc => h c (List.mem_cons_of_mem _ hc)]

theorem strtoul_toDec (n : Nat) : Piond.strtoul10 (toDec n) = min n (2 ^ 64 - 1) := by
  have hd := toDec_isDigit n
  have hv := decVal_toDec n
  have hne := toDec_ne_nil n
  obtain ⟨c, r, hc⟩ := List.exists_cons_of_ne_nil hne
  have h1 : isDigit c = true := hd c (by rw [hc]; exact List.mem_cons_self)
  have h2 : isSpaceC c = false ∧ c ≠ c! "-" ∧ c ≠ c! "+" := by
    have : ∀ c : UInt8, isDigit c = true → isSpaceC c = false ∧ c ≠ c! "-" ∧ c ≠ c! "+" := by decide +kernel
    exact this c h1
  unfold Piond.strtoul10
  rw [hc, List.dropWhile_cons_of_neg (by simp [h2.1])]
  simp only [if_neg h2.2.1, if_neg h2.2.2]
  rw [← hc, digits_all hd, hv]

end Verif.HelloServer
