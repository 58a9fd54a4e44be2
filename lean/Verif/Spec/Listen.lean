import Verif.Model.Listen
/-
What C93 says in terms of the calls made on servers and of the system calls that follow.
-/
namespace Verif.Spec.Listen
open Verif.Listen

/-- Where the socket of a server listens, from the system calls made so far. -/
def listensAt (log : List (Nat × Ev)) (n : Nat) : Option Endpoint :=
  log.foldl (fun r e => match e.2 with
    | .listens m at_ => if m = n then some at_ else r
    | .closed m => if m = n then none else r
    | _ => r) none

/-- The descriptors a server has open. -/
def sockets (log : List (Nat × Ev)) (n : Nat) : Nat :=
  (log.filter fun e => e.2 = .opened n).length - (log.filter fun e => e.2 = .closed n).length

/-- A call of `start` failed, in any but its first system call, and its socket has not been closed since. -/
def broken (log : List (Nat × Ev)) (n : Nat) : Bool :=
  log.foldl (fun r e => match e.2 with
    | .threw m c => if m = n ∧ c ≠ .open then true else r
    | .closed m => if m = n then false else r
    | _ => r) false

/-- What a call tells a server about its endpoint; ports have 16 bits. -/
def tell (n : Nat) (r : Option Endpoint) : Op → Option Endpoint
  | .create m p => if m = n ∧ r = none then some { port := UInt16.ofNat p } else r
  | .createAt m e => if m = n ∧ r = none then some e else r
  | .setPort m p => if m = n then r.map fun e => { e with port := UInt16.ofNat p } else r
  | .setAddress m f a => if m = n then r.map fun e => { e with v6 := f, addr := a } else r
  | .setEndpoint m e => if m = n then r.map fun _ => e else r
  | .destroy m => if m = n then none else r
  | .start _ _ | .stop _ => r

/-- The endpoint that the user of a server told it last, by its constructor or later. -/
def told (ops : List Op) (n : Nat) : Option Endpoint := ops.foldl (tell n) none

/-- A call that tells a server an endpoint, or destroys it. -/
def tells (n : Nat) : Op → Bool
  | .setPort m _ | .setAddress m _ _ | .setEndpoint m _ | .destroy m => m = n
  | _ => false

/-- The system does all that `start` asks for. -/
def Grants (os : Os) : Prop :=
  os.opens = true ∧ os.options = true ∧ os.binds = true ∧ os.names = true ∧ os.listens = true

/-- Two endpoints that cannot both be listened on. -/
def Conflict (a b : Endpoint) : Prop := a.v6 = b.v6 ∧ a.port = b.port ∧ (a.addr = b.addr ∨ a.addr = 0 ∨ b.addr = 0)

/-- What `start` asks for, with the port that the system chooses if asked for any. -/
def given (e : Endpoint) (os : Os) : Endpoint := { e with port := if e.port = 0 then os.port else e.port }

/-- The system binds no socket where another one listens. -/
def Honest (p : AdminRights.Proc) (ops : List Op) : Prop :=
  ∀ pre n os post, ops = pre ++ .start n os :: post → os.binds = true →
    ∀ e, (run p pre).endpoint n = some e → ∀ m a, listensAt (run p pre).log m = some a → ¬Conflict (given e os) a

/-- The process may become the administrator. -/
def MayRule (p : AdminRights.Proc) : Prop := p.euid = 0 ∨ p.ruid = 0 ∨ p.suid = 0

instance (p : AdminRights.Proc) : Decidable (MayRule p) := by unfold MayRule; infer_instance

/-- User ids that survive being kept in 16 bits. -/
def Fits (u : Nat) : Prop := u < 32768 ∨ 2 ^ 32 - 32768 ≤ u ∧ u < 2 ^ 32 - 1

end Verif.Spec.Listen
