import Verif.Spec.Connection
import Mathlib.Tactic.Common
/-
C73: encrypted connections. C74: connecting by name, and closing.
-/
namespace Verif.Props.Connection
open Verif Verif.Connection Verif.Spec.Connection

/- What the functions leave alone -/

private theorem connect_keeps (up : Nat → Bool) (c : Conn) (ep : Nat) :
    (c.connect up ep).2.flag = c.flag ∧ (c.connect up ep).2.tls = c.tls ∧ (c.connect up ep).2.clear = c.clear := by
  unfold Conn.connect
  split
  · exact ⟨rfl, rfl, rfl⟩
  · split <;> exact ⟨rfl, rfl, rfl⟩

private theorem tryEach_keeps (up : Nat → Bool) : ∀ (eps : List Nat) (c : Conn) (ec : Option Err),
    (c.tryEach up ec eps).2.flag = c.flag ∧ (c.tryEach up ec eps).2.tls = c.tls ∧ (c.tryEach up ec eps).2.clear = c.clear
  | [], c, ec => ⟨rfl, rfl, rfl⟩
  | ep :: eps, c, none => ⟨rfl, rfl, rfl⟩
  | ep :: eps, c, some e => by
    have h := connect_keeps up c ep
    rw [Conn.tryEach]
    rcases hc : c.connect up ep with ⟨_ | e', c'⟩ <;> rw [hc] at h
    · obtain ⟨h1, h2, h3⟩ := tryEach_keeps up eps c' none
      exact ⟨h1.trans h.1, h2.trans h.2.1, h3.trans h.2.2⟩
    · obtain ⟨h1, h2, h3⟩ := tryEach_keeps up eps c'.close (some e')
      exact ⟨h1.trans h.1, h2.trans h.2.1, h3.trans h.2.2⟩

private theorem name_keeps (up : Nat → Bool) (c : Conn) (r : Option (List Nat)) :
    (c.connectName up r).2.flag = c.flag ∧ (c.connectName up r).2.tls = c.tls ∧ (c.connectName up r).2.clear = c.clear := by
  cases r with
  | none => exact ⟨rfl, rfl, rfl⟩
  | some eps => exact tryEach_keeps up eps c _

private def datum : Op → List Bytes
  | .transfer d => [d]
  | _ => []

private theorem data_cons (op : Op) (ops : List Op) : data (op :: ops) = datum op ++ data ops := by
  unfold data; rw [List.filterMap_cons]; cases op <;> rfl

private theorem run_secure {b : Build} (hb : b.ssl = true) (up : Nat → Bool) : ∀ (ops : List Op) (c : Conn), c.flag = true →
    (c.run b up ops).clear = c.clear ∧ (c.run b up ops).tls = c.tls ++ data ops
  | [], c, _ => ⟨rfl, by simp [Conn.run, data]⟩
  | op :: ops, c, hc => by
    have step : (c.step b up op).flag = true ∧ (c.step b up op).clear = c.clear ∧
        (c.step b up op).tls = c.tls ++ datum op := by
      cases op with
      | connect ep =>
        obtain ⟨h1, h2, h3⟩ := connect_keeps up c ep
        exact ⟨h1.trans hc, h3, h2.trans (by simp [datum])⟩
      | connectName r =>
        obtain ⟨h1, h2, h3⟩ := name_keeps up c r
        exact ⟨h1.trans hc, h3, h2.trans (by simp [datum])⟩
      | handshake s => cases s <;> simp [Conn.step, Conn.handshake, hb, datum]
      | transfer d => simp [datum, Conn.step, Conn.transfer, hb, hc]
      | close => exact ⟨hc, rfl, by simp [datum, Conn.step, Conn.close]⟩
    obtain ⟨h1, h2⟩ := run_secure hb up ops (c.step b up op) step.1
    refine ⟨h1.trans step.2.1, h2.trans ?_⟩
    rw [step.2.2, data_cons, List.append_assoc]

private theorem run_plain {b : Build} (hb : b.ssl = true) (up : Nat → Bool) : ∀ (ops : List Op) (c : Conn), c.flag = false →
    (c.run b up ops).clear = c.clear ++ inClear false ops ∧ (c.run b up ops).tls = c.tls ++ encrypted false ops
  | [], c, _ => by simp [Conn.run, inClear, encrypted, data]
  | op :: ops, c, hc => by
    cases hs : isHandshake op with
    | true =>
      cases op <;> simp only [isHandshake, Bool.false_eq_true] at hs
      rename_i s
      have h1 : (c.step b up (.handshake s)).flag = true := by cases s <;> simp [Conn.step, Conn.handshake, hb]
      have h2 : (c.step b up (.handshake s)).clear = c.clear ∧ (c.step b up (.handshake s)).tls = c.tls := by
        cases s <;> simp [Conn.step, Conn.handshake, hb]
      obtain ⟨h3, h4⟩ := run_secure hb up ops _ h1
      refine ⟨h3.trans (h2.1.trans ?_), h4.trans ?_⟩
      · simp [inClear, isHandshake, data]
      · rw [h2.2]; simp [encrypted, isHandshake, data_cons, datum]
    | false =>
      have step : (c.step b up op).flag = false ∧ (c.step b up op).tls = c.tls ∧
          (c.step b up op).clear = c.clear ++ datum op := by
        cases op with
        | connect ep =>
          obtain ⟨h1, h2, h3⟩ := connect_keeps up c ep
          exact ⟨h1.trans hc, h2, h3.trans (by simp [datum])⟩
        | connectName r =>
          obtain ⟨h1, h2, h3⟩ := name_keeps up c r
          exact ⟨h1.trans hc, h2, h3.trans (by simp [datum])⟩
        | handshake s => cases hs
        | transfer d => simp [datum, Conn.step, Conn.transfer, hc]
        | close => exact ⟨hc, rfl, by simp [datum, Conn.step, Conn.close]⟩
      obtain ⟨h1, h2⟩ := run_plain hb up ops (c.step b up op) step.1
      refine ⟨h1.trans ?_, h2.trans ?_⟩
      · rw [step.2.2]; unfold inClear
        rw [if_neg (by simp), if_neg (by simp), List.takeWhile_cons, if_pos (by simp [hs]), data_cons, List.append_assoc]
      · rw [step.2.1]; unfold encrypted
        rw [if_neg (by simp), if_neg (by simp), List.dropWhile_cons, if_pos (by simp [hs])]

/-- **C73 (what goes in the clear).** In a build with SSL, whatever is done with a connection and whatever the network
    does: if it was made for SSL nothing goes past the SSL stream, otherwise only what comes before the first handshake,
    even if the handshake fails. Nothing is lost, and everything keeps its order. -/
theorem no_clear_text {b : Build} (hb : b.ssl = true) (up : Nat → Bool) (flag : Bool) (ops : List Op) :
    ((create b flag).run b up ops).clear = inClear flag ops ∧ ((create b flag).run b up ops).tls = encrypted flag ops := by
  cases flag with
  | true =>
    have := run_secure hb up ops (create b true) (by simp [create, hb])
    simpa [create, inClear, encrypted] using this
  | false =>
    have := run_plain hb up ops (create b false) (by simp [create])
    simpa [create] using this

def session : List Op := [.connectName (some [3, 4]), .transfer (b! "STARTTLS"), .handshake false, .transfer (b! "secret"),
  .close, .connect 4, .transfer (b! "more")]

example : ((create ⟨true⟩ false).run ⟨true⟩ (· == 4) session).clear = [b! "STARTTLS"] ∧
    ((create ⟨true⟩ false).run ⟨true⟩ (· == 4) session).tls = [b! "secret", b! "more"] ∧
    inClear false session = [b! "STARTTLS"] := by decide +kernel

/-- C73: a connection that is closed is not secured any more, and is not secured either when it is connected again, although the
    flag, which decides that data goes through the SSL stream, stays set (connection.hpp:151-168 does not reset it). -/
theorem reconnected {up : Nat → Bool} (c : Conn) (ep : Nat) (h : up ep = true) :
    c.close.isOpen = false ∧ c.close.secured = false ∧ c.close.flag = c.flag ∧
    (c.close.connect up ep).2.sock = .connected ep ∧ (c.close.connect up ep).2.secured = false ∧
    (c.close.connect up ep).2.flag = c.flag := by
  simp [Conn.close, Conn.isOpen, Conn.connect, h]

/-- **C73 (streams).** A stream made for SSL connects without error only if the handshake has succeeded. -/
theorem stream_secured {b : Build} (hb : b.ssl = true) {up : Nat → Bool} {succeeds : Bool} {c c' : Conn} {ep : Nat}
    (hf : c.flag = true) (h : c.streamConnect b up succeeds ep = (none, c')) :
    succeeds = true ∧ up ep = true ∧ c'.secured = true ∧ c'.sock = .connected ep := by
  unfold Conn.streamConnect Conn.connect at h
  cases hs : c.sock <;> rw [hs] at h <;> cases hu : up ep <;> rw [hu] at h <;>
    cases succeeds <;> simp [Conn.handshake, hb, hf] at h
  all_goals (subst h; exact ⟨rfl, rfl, rfl, rfl⟩)

example : ((create ⟨true⟩ true).streamConnect ⟨true⟩ (· == 4) true 4).1 = none := by decide +kernel

/- The server -/

/-- All connections of the server were made for SSL; those handled are secured. -/
private structure Inv (b : Build) (s : Server) : Prop where
  flag : s.flag = true
  conns : ∀ x ∈ s.conns, x.1.flag = true ∧ (x.2 = .handled → x.1.secured = true)
  given : ∀ c ∈ s.given, c.flag = true ∧ c.secured = true

private theorem inv_listen {b : Build} (hb : b.ssl = true) {s : Server} (h : Inv b s) : Inv b (s.listen b) := by
  unfold Server.listen
  split
  · refine ⟨h.flag, ?_, h.given⟩
    intro x hx
    rcases List.mem_append.1 hx with hx | hx
    · exact h.conns x hx
    · rw [List.mem_singleton.1 hx]; simp [create, hb, h.flag]
  · exact h

private theorem inv_set {b : Build} {s : Server} (h : Inv b s) {i : Nat} {x : Conn × Phase}
    (hx : x.1.flag = true ∧ (x.2 = .handled → x.1.secured = true)) : ∀ y ∈ s.conns.set i x,
      y.1.flag = true ∧ (y.2 = .handled → y.1.secured = true) := by
  intro y hy
  rcases List.mem_or_eq_of_mem_set hy with hy | rfl
  · exact h.conns y hy
  · exact hx

private theorem inv_step {b : Build} (hb : b.ssl = true) {s : Server} (h : Inv b s) {e : Ev} (he : e ≠ .setFlag false) :
    Inv b (s.step b e) := by
  cases e with
  | setFlag f =>
    cases f with
    | false => exact absurd rfl he
    | true => exact ⟨rfl, h.conns, h.given⟩
  | start =>
    simp only [Server.step]
    split
    · exact h
    · exact inv_listen hb (s := { s with listening := true }) ⟨h.flag, h.conns, h.given⟩
  | stop => exact ⟨h.flag, h.conns, h.given⟩
  | accepted i =>
    simp only [Server.step]
    split
    · rename_i c hc
      have hf := (h.conns _ (List.mem_of_getElem? hc)).1
      rw [if_pos (by simp only [hb, Bool.true_and]; exact hf)]
      have h' := inv_listen hb h
      exact ⟨h'.flag, inv_set h' ⟨hf, fun hh => by cases hh⟩, h'.given⟩
    · exact h
  | shaken i ok =>
    simp only [Server.step]
    split
    · rename_i c hc
      have hf := (h.conns _ (List.mem_of_getElem? hc)).1
      unfold Conn.handshake
      rw [if_pos hb]
      cases ok with
      | false => exact ⟨h.flag, inv_set h ⟨rfl, fun hh => by cases hh⟩, h.given⟩
      | true =>
        refine ⟨h.flag, inv_set h ⟨rfl, fun _ => rfl⟩, ?_⟩
        intro c' hc'
        rcases List.mem_append.1 hc' with hc' | hc'
        · exact h.given c' hc'
        · rw [List.mem_singleton.1 hc']; exact ⟨rfl, rfl⟩
    · exact h
  | finished i keep =>
    simp only [Server.step]
    split
    · rename_i c hc
      have hf := h.conns _ (List.mem_of_getElem? hc)
      split
      · refine ⟨h.flag, h.conns, ?_⟩
        intro c' hc'
        rcases List.mem_append.1 hc' with hc' | hc'
        · exact h.given c' hc'
        · rw [List.mem_singleton.1 hc']; exact ⟨hf.1, hf.2 rfl⟩
      · exact ⟨h.flag, inv_set h ⟨hf.1, fun hh => by cases hh⟩, h.given⟩
    · exact h

/-- **C73 (servers, partial: the build has SSL, and the server is told before it is started).** A server with a key file
    hands over only connections on which the handshake has succeeded and whose data goes through the SSL stream. -/
theorem server_secured_partial {b : Build} (hb : b.ssl = true) (es : List Ev) (hes : Ev.setFlag false ∉ es) :
    ∀ c ∈ (({} : Server).run b (.setFlag true :: es)).given, c.flag = true ∧ c.secured = true := by
  have key : ∀ (es : List Ev) (s : Server), Ev.setFlag false ∉ es → Inv b s → Inv b (s.run b es) := by
    intro es
    induction es with
    | nil => intro s _ h; exact h
    | cons e es ih =>
      intro s hn h
      rw [List.mem_cons, not_or] at hn
      exact ih _ hn.2 (inv_step hb h (fun he => hn.1 he.symm))
  refine (key es _ hes ?_).given
  exact ⟨rfl, by simp [Server.step], by simp [Server.step]⟩

/-- **C73 (servers answer).** A client whose handshake succeeds is handed over; one whose handshake fails is dropped and
    never handed over again. -/
theorem handshake_decides {b : Build} (hb : b.ssl = true) (s : Server) {i : Nat} {c : Conn} (h : s.conns[i]? = some (c, .shaking)) :
    (s.step b (.shaken i true)).given = s.given ++ [{ c with flag := true, secured := true }] ∧
    (s.step b (.shaken i false)).given = s.given ∧
    ∃ c', (s.step b (.shaken i false)).conns[i]? = some (c', .gone) ∧ c'.isOpen = false := by
  have hi : i < s.conns.length := by
    rcases Nat.lt_or_ge i s.conns.length with hi | hi
    · exact hi
    · rw [List.getElem?_eq_none hi] at h; cases h
  simp only [Server.step, h, Conn.handshake, hb, if_true]
  refine ⟨trivial, rfl, _, List.getElem?_set_self hi, rfl⟩

/-- **C73 (servers accept).** The connection of a new client goes into the handshake if it was made for SSL, and is handed over
    at once otherwise; in both cases the server waits for the next client, on a connection made as the server is told now. -/
theorem accept_decides {b : Build} (hb : b.ssl = true) (s : Server) (hl : s.listening = true) {i : Nat} {c : Conn}
    (h : s.conns[i]? = some (c, .accepting)) :
    let s' := s.step b (.accepted i)
    let c' := { c with sock := .connected i }
    (c.flag = true → s'.conns[i]? = some (c', .shaking) ∧ s'.given = s.given) ∧
    (c.flag = false → s'.conns[i]? = some (c', .handled) ∧ s'.given = s.given ++ [c']) ∧
    s'.conns[s.conns.length]? = some (create b s.flag, .accepting) := by
  have hi : i < s.conns.length := by
    rcases Nat.lt_or_ge i s.conns.length with hi | hi
    · exact hi
    · rw [List.getElem?_eq_none hi] at h; cases h
  have hne : i ≠ s.conns.length := Nat.ne_of_lt hi
  simp only [Server.step, h, Server.listen, hl, hb, if_true, Bool.true_and]
  refine ⟨fun hf => ?_, fun hf => ?_, ?_⟩
  · rw [if_pos hf]; exact ⟨List.getElem?_set_self (by simp; omega), rfl⟩
  · rw [if_neg (by simp [hf])]; exact ⟨List.getElem?_set_self (by simp; omega), rfl⟩
  · split <;> (dsimp only; rw [List.getElem?_set_ne hne]; simp)

/-- A connection that is gone stays gone. -/
theorem gone_for_good {b : Build} {s : Server} {i : Nat} {c : Conn} (h : s.conns[i]? = some (c, .gone)) (e : Ev) :
    (s.step b e).conns[i]? = some (c, .gone) := by
  have hi : i < s.conns.length := by
    rcases Nat.lt_or_ge i s.conns.length with hi | hi
    · exact hi
    · rw [List.getElem?_eq_none hi] at h; cases h
  have hl : ∀ s' : Server, s'.conns = s.conns → (s'.listen b).conns[i]? = some (c, .gone) := by
    intro s' hs
    unfold Server.listen
    split
    · rw [hs, List.getElem?_append_left hi]; exact h
    · rw [hs]; exact h
  cases e with
  | setFlag f => exact h
  | start =>
    simp only [Server.step]
    split
    · exact h
    · exact hl _ rfl
  | stop => exact h
  | accepted j =>
    simp only [Server.step]
    split
    · rename_i c' hc
      have hj : j ≠ i := by rintro rfl; rw [h] at hc; cases hc
      split <;> (dsimp only; rw [List.getElem?_set_ne hj]; exact hl s rfl)
    · exact h
  | shaken j ok =>
    simp only [Server.step]
    split
    · rename_i c' hc
      have hj : j ≠ i := by rintro rfl; rw [h] at hc; cases hc
      split <;> (dsimp only; rw [List.getElem?_set_ne hj]; exact h)
    · exact h
  | finished j keep =>
    simp only [Server.step]
    split
    · rename_i c' hc
      have hj : j ≠ i := by rintro rfl; rw [h] at hc; cases hc
      split
      · exact h
      · dsimp only; rw [List.getElem?_set_ne hj]; exact h
    · exact h

def clients : List Ev := [.start, .accepted 0, .shaken 0 true, .accepted 1, .shaken 1 false, .finished 0 true, .finished 0 false]

example : (({} : Server).run ⟨true⟩ (.setFlag true :: clients)).given.map (fun c => (c.flag, c.secured, c.sock)) =
    [(true, true, .connected 0), (true, true, .connected 0)] := by decide +kernel

/-- **C73, violated in builds without SSL.** A connection asked to be encrypted, and one on which a handshake was made
    without error, send everything in the clear; a server with a key file says that it uses SSL and serves in the clear. -/
theorem build_without_ssl (up : Nat → Bool) (flag : Bool) (ops : List Op) :
    ((create ⟨false⟩ flag).run ⟨false⟩ up ops).clear = data ops ∧
    (∀ c : Conn, ∀ ok, (c.handshake ⟨false⟩ ok).1 = none) ∧
    (({} : Server).run ⟨false⟩ [.setFlag true, .start, .accepted 0]).flag = true ∧
    (({} : Server).run ⟨false⟩ [.setFlag true, .start, .accepted 0]).given = [{ create ⟨false⟩ false with sock := .connected 0 }] := by
  refine ⟨?_, fun _ _ => rfl, by decide, by decide⟩
  have key : ∀ (ops : List Op) (c : Conn), (c.run ⟨false⟩ up ops).clear = c.clear ++ data ops := by
    intro ops
    induction ops with
    | nil => intro c; simp [Conn.run, data]
    | cons op ops ih =>
      intro c
      refine (ih (c.step ⟨false⟩ up op)).trans ?_
      rw [data_cons, ← List.append_assoc]
      congr 1
      cases op with
      | connect ep => simpa [datum, Conn.step] using (connect_keeps up c ep).2.2
      | connectName r => simpa [datum, Conn.step] using (name_keeps up c r).2.2
      | handshake s => simp [datum, Conn.step, Conn.handshake]
      | transfer d => simp [datum, Conn.step, Conn.transfer]
      | close => simp [datum, Conn.step, Conn.close]
  exact (key ops _).trans (by simp [create])

/-- **C73, violated if the key file is set while the server runs.** The connection that already waits for a client serves
    the next one in the clear. -/
theorem late_key_file : ∃ c, (({} : Server).run ⟨true⟩ [.start, .setFlag true, .accepted 0]).given = [c] ∧
    (({} : Server).run ⟨true⟩ [.start, .setFlag true, .accepted 0]).flag = true ∧ c.flag = false :=
  ⟨_, rfl, rfl, rfl⟩

/- Connecting -/

/-- **C74 (by name).** On a connection that is not connected, `connect` by name asks the endpoints the resolver returned in
    order until one answers. It succeeds exactly if one answers, and is then connected to the first of them, without having
    asked the others. If none answers, the connection is closed again and the error is that of the last one, or
    `host_not_found` if there is none. -/
theorem connect_by_name (up : Nat → Bool) (c : Conn) (h : c.sock = .closed) (eps : List Nat) :
    (∀ ep, eps.find? up = some ep → (c.connectName up (some eps)).1 = none ∧
      (c.connectName up (some eps)).2.sock = .connected ep ∧
      (c.connectName up (some eps)).2.tried = c.tried ++ eps.takeWhile (fun e => !up e) ++ [ep]) ∧
    (eps.find? up = none → (c.connectName up (some eps)).1 = some (match eps.getLast? with
        | none => .hostNotFound
        | some e => .refused e) ∧
      (c.connectName up (some eps)).2.sock = .closed ∧ (c.connectName up (some eps)).2.tried = c.tried ++ eps) := by
  have key : ∀ (eps : List Nat) (c : Conn) (ec : Err), c.sock = .closed →
      (∀ ep, eps.find? up = some ep → (c.tryEach up (some ec) eps).1 = none ∧ (c.tryEach up (some ec) eps).2.sock = .connected ep ∧
        (c.tryEach up (some ec) eps).2.tried = c.tried ++ eps.takeWhile (fun e => !up e) ++ [ep]) ∧
      (eps.find? up = none → (c.tryEach up (some ec) eps).1 = some (match eps.getLast? with
          | none => ec
          | some e => .refused e) ∧ (c.tryEach up (some ec) eps).2.sock = .closed ∧
        (c.tryEach up (some ec) eps).2.tried = c.tried ++ eps) := by
    intro eps
    induction eps with
    | nil => intro c ec hc; exact ⟨fun ep hh => (nomatch hh), fun _ => ⟨rfl, hc, by simp [Conn.tryEach]⟩⟩
    | cons e eps ih =>
      intro c ec hc
      cases hu : up e with
      | true =>
        have h1 : c.connect up e = (none, { c with sock := .connected e, tried := c.tried ++ [e] }) := by
          unfold Conn.connect; rw [hc]; simp [hu]
        have h2 : c.tryEach up (some ec) (e :: eps) = (none, { c with sock := .connected e, tried := c.tried ++ [e] }) := by
          rw [Conn.tryEach, h1]; cases eps <;> rfl
        rw [h2, List.find?_cons, hu]
        refine ⟨?_, fun hh => by cases hh⟩
        intro ep hep
        cases hep
        simp [hu]
      | false =>
        have h1 : c.connect up e = (some (.refused e), { c with sock := .opened, tried := c.tried ++ [e] }) := by
          unfold Conn.connect; rw [hc]; simp [hu]
        have h2 : c.tryEach up (some ec) (e :: eps) =
            ({ c with sock := .opened, tried := c.tried ++ [e] } : Conn).close.tryEach up (some (.refused e)) eps := by
          rw [Conn.tryEach, h1]
        obtain ⟨i1, i2⟩ := ih ({ c with sock := .opened, tried := c.tried ++ [e] } : Conn).close (.refused e) rfl
        rw [h2, List.find?_cons, hu]
        constructor
        · intro ep hep
          obtain ⟨j1, j2, j3⟩ := i1 ep hep
          refine ⟨j1, j2, j3.trans ?_⟩
          simp [Conn.close, hu]
        · intro hn
          obtain ⟨j1, j2, j3⟩ := i2 hn
          refine ⟨j1.trans ?_, j2, j3.trans (by simp [Conn.close])⟩
          cases eps with
          | nil => rfl
          | cons a l => rw [List.getLast?_cons_cons]; cases hl : (a :: l).getLast? with
            | none => simp at hl
            | some x => rfl
  exact key eps c .hostNotFound h

example : ((create ⟨false⟩ false).connectName (· > 6) (some [5, 6, 7, 8])).2.sock = .connected 7 ∧
    ((create ⟨false⟩ false).connectName (· > 6) (some [5, 6, 7, 8])).2.tried = [5, 6, 7] ∧
    ((create ⟨false⟩ false).connectName (· > 6) (some [5, 6])).1 = some (.refused 6) := by decide +kernel

/-- An error of the resolver is returned and nothing is changed. -/
theorem resolver_error (up : Nat → Bool) (c : Conn) : c.connectName up none = (some .resolver, c) := rfl

/-- **C74 (closing).** After `close`, and hence after the destructor, the connection is not open; closing again changes
    nothing, and the connection can be connected again. -/
theorem closed (up : Nat → Bool) (c : Conn) : c.close.isOpen = false ∧ c.close.close = c.close ∧
    ∀ ep, up ep = true → (c.close.connect up ep).1 = none ∧ (c.close.connect up ep).2.sock = .connected ep := by
  refine ⟨rfl, rfl, fun ep h => ?_⟩
  unfold Conn.connect
  simp [Conn.close, h]

/-- **C74, violated on a connection that is connected.** Connecting by name closes a working connection, and asks all
    endpoints but the first: if that is the only one, the result is an error although the host answers. -/
theorem reconnect_drops (up : Nat → Bool) (c : Conn) {p : Nat} (h : c.sock = .connected p) (ep : Nat) :
    (c.connectName up (some [ep])).1 = some .alreadyConnected ∧ (c.connectName up (some [ep])).2.sock = .closed := by
  unfold Conn.connectName
  simp only [Conn.tryEach, Conn.connect, h]
  exact ⟨trivial, rfl⟩

/-- **C74, violated for ports that do not fit 16 bits.** They are taken modulo 65536. -/
theorem port_wraps : endpointPort 65616 = 80 ∧ ∀ p : UInt32, (endpointPort p).toNat = p.toNat % 65536 :=
  ⟨by decide, fun p => by simp [endpointPort]⟩

end Verif.Props.Connection
