import Verif.Channel.Model

/-!
# Vocabulary of the channel properties

Functions of the event history (`tr`, oldest first) and of the places where values and slots can be.
-/

namespace Verif.Channel

variable {T : Type}

/-- Values whose send took effect, in that order. -/
def sentVals (tr : List (Ev T)) : List T := tr.filterMap fun | .enq _ v => some v | _ => none

/-- Values handed out by the receiver, in that order. -/
def recvVals (tr : List (Ev T)) : List T := tr.filterMap fun | .recvd v => some v | _ => none

/-- Values dropped by `Receiver::drop`. -/
def discardedVals (tr : List (Ev T)) : List T := tr.filterMap fun | .discarded v => some v | _ => none

/-- Values in the queue, oldest first. -/
def queued (s : St T) : List T := s.ready.filterMap s.slots

/-- The value taken out of the queue by a receive operation (or `Receiver::drop`) that is still running. -/
def inReceive (s : St T) : List T :=
  match s.rx with
  | .got _ x | .dgot x => (s.slots x).toList
  | .rd _ _ v => [v]
  | _ => []

/-- The places a slot can be at. -/
inductive Place where
  | freePool
  | queue
  /-- used by the running operation of sender `i` -/
  | sender (i : Nat)
  /-- handed to sender `i`, which was waiting and has not been polled since -/
  | promised (i : Nat)
  /-- used by the running receive (or drop of the receiver) -/
  | receive
deriving DecidableEq, Repr

/-- Is the slot index `x` at this place? -/
def At (s : St T) (x : Nat) : Place → Prop
  | .freePool => x ∈ s.free
  | .queue => x ∈ s.ready
  | .sender i => ∃ v, s.snd i = .drop0 v (.ok x) ∨ s.snd i = .drop1 v (.ok x) ∨ s.snd i = .hold v x ∨
      s.snd i = .written v x
  | .promised i => s.sl i = some x
  | .receive => (∃ m, s.rx = .got m x) ∨ (∃ m v, s.rx = .rd m x v) ∨ s.rx = .dgot x

/-- The sender exists (has not been dropped). -/
def Alive (s : St T) (i : Nat) : Prop := s.snd i ≠ .absent ∧ s.snd i ≠ .dropW

/-- No operation of this sender is running (for a dropping sender: the reference count is already updated). -/
def Quiet (s : St T) (i : Nat) : Prop := s.snd i = .absent ∨ s.snd i = .idle ∨ s.snd i = .dropW

/-- State of the receiver's waker, from the history: the last registered waker and whether it has been woken since. -/
def regState : Option (Nat × Bool) → List (Ev T) → Option (Nat × Bool)
  | r, [] => r
  | _, .reg w :: tr => regState (some (w, false)) tr
  | some (w, b), .wokeR w' :: tr => regState (some (w, b || w == w')) tr
  | r, _ :: tr => regState r tr

/-- For sender `i`, from the history: the argument of its last `send`/`try_send` call, and the values it has put into the
channel since that call. -/
def opState (i : Nat) : Option (T × List T) → List (Ev T) → Option (T × List T)
  | r, [] => r
  | r, .start j v :: tr => opState i (if j = i then some (v, []) else r) tr
  | some (v, vs), .enq j v' :: tr => opState i (some (v, if j = i then vs ++ [v'] else vs)) tr
  | r, _ :: tr => opState i r tr

end Verif.Channel
