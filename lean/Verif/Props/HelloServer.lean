import Verif.Lemmas.HelloServer
/-
C107: the program `helloserver`.
-/
namespace Verif.Props.HelloServer
open Verif Verif.HelloServer Verif.TcpServer

/-- `s` is a state in which the program can be after the steps `as`. -/
def After (as : List HelloServer.Act) (s : HelloServer.St) : Prop := ({} : HelloServer.St).run as = some s

/-- **C107 (what is sent).** Whatever the clients, the threads and the network do, nobody is sent anything but the beginning of
    the greeting, and the connections that are finished were sent all of it, unless the accept or the write failed. -/
theorem greeting {as : List HelloServer.Act} {s : HelloServer.St} (h : After as s) (c : Nat) :
    s.out c <+: b! "Hello there!\r\n" ∧
    (s.tcp.status c = .finished → Act.broken c ∉ as → Act.server (.fail c) ∉ as → s.out c = b! "Hello there!\r\n") := by
  have i : Inv s as := inv_run (before := []) inv_start h
  constructor
  · rw [i.out c]
    exact List.take_prefix _ _
  · intro hf h1 h2
    rcases i.late c hf with e | e | e
    · rw [i.out c, e]
      decide
    · exact absurd e h1
    · exact absurd e h2

/-- How far a connection is from its end, once it has been accepted: the bytes to be written and the handlers to be run. -/
def way (pos : Nat) : Status → Nat
  | .accepted ok due => (if ok then 16 else 1) + if due then 1 else 0
  | .serving => 15 - pos
  | _ => 0

def left (s : HelloServer.St) (c : Nat) : Nat := way (s.pos c) (s.tcp.status c)

/-- The step with which a connection goes on. -/
def goOn (s : HelloServer.St) (c : Nat) : HelloServer.Act :=
  match s.tcp.status c with
  | .accepted _ true => .server (.listen c)
  | .accepted true false => .serve c
  | .accepted false false => .server (.fail c)
  | _ => if s.pos c = 14 then .done c else .take c (14 - s.pos c)

/-- **C107 (every client is served).** A connection that has been accepted can always go on, and comes nearer to its end by
    that; four such steps finish it. No step of the server, of other connections or of a call of `stop`
    takes that away (`left_kept`). -/
theorem goes_on {as : List HelloServer.Act} {s : HelloServer.St} (h : After as s) {c : Nat} (hl : 0 < left s c) :
    ∃ s', s.step (goOn s c) = some s' ∧ left s' c < left s c := by
  have i : Inv s as := inv_run (before := []) inv_start h
  have hm : message.length = 14 := by decide
  have hp := i.pos c
  rw [hm] at hp
  cases hst : s.tcp.status c with
  | absent => simp [left, way, hst] at hl
  | accepting => simp [left, way, hst] at hl
  | orphan => exact absurd hst (i.plain.noOrphan c)
  | finished => simp [left, way, hst] at hl
  | accepted ok due =>
    cases due with
    | true =>
      have e : s.tcp.step (.listen c) = some ({ s.tcp with status := upd s.tcp.status c (.accepted ok false) } : TcpServer.St).listen := by
        simp [TcpServer.St.step, hst, i.plain.alive]
      refine ⟨{ s with tcp := ({ s.tcp with status := upd s.tcp.status c (.accepted ok false) } : TcpServer.St).listen }, ?_, ?_⟩
      · simp [goOn, hst, HelloServer.St.step, own, e]
      · have hne : c ≠ s.tcp.next := by
          intro e
          rw [i.plain.fresh c (Nat.le_of_eq e.symm)] at hst
          cases hst
        have : (({ s.tcp with status := upd s.tcp.status c (.accepted ok false) } : TcpServer.St).listen).status c = .accepted ok false := by
          unfold TcpServer.St.listen TcpServer.St.prune
          split <;> simp [upd, hne]
        simp [left, way, this, hst]
    | false =>
      cases ok with
      | true =>
        refine ⟨{ s with tcp := { s.tcp with status := upd s.tcp.status c .serving } }, ?_, ?_⟩
        · simp [goOn, hst, HelloServer.St.step, TcpServer.St.step]
        · simp only [left, way, hst, upd, if_pos]
          simp
          omega
      | false =>
        refine ⟨{ s with tcp := s.tcp.remove c }, ?_, ?_⟩
        · simp [goOn, hst, HelloServer.St.step, own, TcpServer.St.step, i.plain.alive, TcpServer.St.finish]
        · simp [left, way, hst, TcpServer.St.remove, upd]
  | serving =>
    by_cases h14 : s.pos c = 14
    · refine ⟨{ s with tcp := s.tcp.remove c }, ?_, ?_⟩
      · simp [goOn, hst, HelloServer.St.step, h14, hm, TcpServer.St.step, i.plain.alive, TcpServer.St.finish]
      · simp [left, way, hst, TcpServer.St.remove, upd, h14]
    · have e : s.step (goOn s c) = some { s with
          pos := fun d => if d = c then s.pos c + (14 - s.pos c) else s.pos d
          out := fun d => if d = c then s.out c ++ (message.drop (s.pos c)).take (14 - s.pos c) else s.out d } := by
        simp only [goOn, hst, if_neg h14, HelloServer.St.step, hm]
        rw [if_pos ⟨trivial, by omega, by omega⟩]
      refine ⟨_, e, ?_⟩
      simp only [left, way, hst, if_pos]
      omega

/-- Once a connection is accepted no step makes the way to its end longer. -/
theorem left_kept {as : List HelloServer.Act} {s s' : HelloServer.St} {a : HelloServer.Act} (h : After as s) (hs : s.step a = some s')
    {c : Nat} (ha : s.tcp.status c ≠ .absent) (hb : s.tcp.status c ≠ .accepting) : left s' c ≤ left s c := by
  have i : Inv s as := inv_run (before := []) inv_start h
  have hm : message.length = 14 := by decide
  have hne : c ≠ s.tcp.next := by
    intro e
    exact ha (i.plain.fresh c (Nat.le_of_eq e.symm))
  have moved : ∀ d v, way (s.pos d) v ≤ way (s.pos d) (s.tcp.status d) → way (s.pos c) (upd s.tcp.status d v c) ≤ way (s.pos c) (s.tcp.status c) := by
    intro d v hv
    unfold upd
    by_cases hcd : c = d
    · rw [if_pos hcd, hcd]
      exact hv
    · rw [if_neg hcd]
      exact Nat.le_refl _
  have fin : ∀ d t, s.tcp.step (.finish d false false) = some t → left { s with tcp := t } c ≤ left s c := by
    intro d t ht
    obtain ⟨_, h2, h3⟩ := finish_plain i.plain ht
    unfold left
    dsimp only
    rw [h3]
    exact moved d .finished (Nat.zero_le _)
  have same : ∀ t : TcpServer.St, t.status c = s.tcp.status c → left { s with tcp := t } c ≤ left s c := by
    intro t ht
    unfold left
    dsimp only
    rw [ht]
    exact Nat.le_refl _
  cases a with
  | server a =>
    simp only [HelloServer.St.step] at hs
    split at hs
    · cases hs
    · rename_i ho
      obtain ⟨t, ht, rfl⟩ := Option.map_eq_some_iff.1 hs
      have hlis : ∀ t : TcpServer.St, t.next = s.tcp.next → (∀ d, t.status d ≠ .orphan) → t.listen.status c = t.status c := by
        intro t h1 h2
        unfold TcpServer.St.listen
        rw [prune_eq h2]
        split
        · simp [upd, h1, hne]
        · rfl
      cases a with
      | serve d => exact absurd rfl ho
      | finish d k n => exact absurd rfl ho
      | drop d => exact absurd rfl ho
      | start =>
        simp only [TcpServer.St.step, i.plain.alive, Bool.false_eq_true, if_false] at ht
        split at ht <;> cases ht <;> exact same _ rfl
      | startListen =>
        simp only [TcpServer.St.step] at ht
        split at ht <;> cases ht
        exact same _ (hlis s.tcp rfl i.plain.noOrphan)
      | accept d ok =>
        simp only [TcpServer.St.step] at ht
        split at ht <;> cases ht
        rename_i hd
        refine same _ ?_
        dsimp only [upd]
        rw [if_neg]
        rintro rfl
        exact hb hd
      | listen d =>
        simp only [TcpServer.St.step] at ht
        split at ht
        · rename_i ok hd
          rw [if_neg (by simp [i.plain.alive])] at ht
          cases ht
          have e := hlis { s.tcp with status := upd s.tcp.status d (.accepted ok false) } rfl (by
            intro x
            dsimp only [upd]
            split
            · nofun
            · exact i.plain.noOrphan x)
          unfold left
          dsimp only
          rw [e]
          exact moved d (.accepted ok false) (by rw [hd]; simp [way])
        · cases ht
      | fail d =>
        simp only [TcpServer.St.step] at ht
        split at ht <;> cases ht
        rename_i hd
        unfold left
        dsimp only
        have e : s.tcp.finish d false false = s.tcp.remove d := by simp [TcpServer.St.finish]
        rw [e]
        exact moved d .finished (Nat.zero_le _)
      | stop =>
        simp only [TcpServer.St.step, i.plain.alive, Bool.false_eq_true, if_false] at ht
        split at ht <;> cases ht <;> exact same _ rfl
      | stopLoop =>
        simp only [TcpServer.St.step, prune_eq i.plain.noOrphan] at ht
        split at ht
        · cases ht
        · split at ht <;> cases ht <;> exact same _ rfl
  | serve d =>
    obtain ⟨t, ht, rfl⟩ := Option.map_eq_some_iff.1 hs
    obtain ⟨_, h2, h3⟩ := serve_plain i.plain ht
    unfold left
    dsimp only
    rw [h3]
    refine moved d .serving ?_
    rw [h2]
    simp only [way, if_pos]
    omega
  | take d n =>
    simp only [HelloServer.St.step] at hs
    split at hs <;> cases hs
    unfold left
    dsimp only
    by_cases hcd : c = d
    · subst hcd
      rw [if_pos rfl]
      unfold way
      split <;> omega
    · rw [if_neg hcd]
      exact Nat.le_refl _
  | broken d =>
    simp only [HelloServer.St.step] at hs
    split at hs
    · obtain ⟨t, ht, rfl⟩ := Option.map_eq_some_iff.1 hs
      exact fin d t ht
    · cases hs
  | done d =>
    simp only [HelloServer.St.step] at hs
    split at hs
    · obtain ⟨t, ht, rfl⟩ := Option.map_eq_some_iff.1 hs
      exact fin d t ht
    · cases hs

/-- **C107 (it never hangs).** No thread waits for ever for the mutex of the server. -/
theorem never_dead {as : List HelloServer.Act} {s : HelloServer.St} (h : After as s) : s.tcp.dead = false :=
  (inv_run (before := []) inv_start h).plain.alive

/-- **C107 (the port).** Without an argument, or if it is no number, 8080; a port that is written in decimal is the one that is
    used. Partial: greater numbers are used modulo 65536. -/
theorem port_partial {n : Nat} (h0 : 0 < n) (h1 : n < 65536) :
    port [] = some 8080 ∧ port [toDec n] = some (UInt16.ofNat n) := by
  refine ⟨by decide, ?_⟩
  have e : Piond.strtoul10 (toDec n) = n := by
    rw [strtoul_toDec]
    omega
  unfold port
  simp only [e]
  have hne : UInt32.ofNat n ≠ 0 := by
    intro h
    have := congrArg UInt32.toNat h
    simp at this
    omega
  rw [if_neg hne]
  congr 1
  apply UInt16.toNat_inj.1
  simp

/-- **C107 fails for a number that is too great**: 65536 is taken, and the program listens on a port nobody knows; 65616 is port 80. -/
theorem port_wraps : port [b! "65536"] = some 0 ∧ port [b! "65616"] = some 80 ∧ port [b! "-1"] = some 65535 := by decide +kernel

/-- Two clients, the writes of which overlap, one in two parts, while the server is being stopped. -/
def session : List HelloServer.Act := [.server .start, .server .startListen, .server (.accept 0 true), .server (.listen 0), .serve 0, .take 0 3,
  .server (.accept 1 true), .server (.listen 1), .serve 1, .server .stop, .take 1 14, .done 1, .server .stopLoop, .take 0 11, .done 0]

example : ∃ s, After session s ∧ s.tcp.status 0 = .finished ∧ s.tcp.status 1 = .finished ∧ s.out 0 = b! "Hello there!\r\n" ∧
    Act.broken 0 ∉ session ∧ Act.server (.fail 0) ∉ session := by
  refine ⟨_, rfl, ?_⟩
  decide +kernel
example : ∃ s, After (session.take 6) s ∧ left s 0 = 12 ∧ goOn s 0 = .take 0 11 := by
  refine ⟨_, rfl, ?_⟩
  decide +kernel

end Verif.Props.HelloServer
