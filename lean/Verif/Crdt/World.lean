import Mathlib.Data.Set.Basic
import Mathlib.Data.Set.Insert
/-!
# A distributed system of state-based replicas

This is the environment in which the replicated data types are used: any number of replicas, each
issuing operations on its own copy, sending copies of its state into a network that may delay,
reorder, duplicate and drop them, and merging whatever arrives.  The network (gossip over
`Distributed`, `logicaffeine_system/src/storage/distributed.rs:274-323`) is not modelled further: any
state ever sent may be delivered to anybody at any time, any number of times, or never.

Ghost data, invisible to the code, records *which operations a state has received*: the specification
of every replicated type is a function of that set.
-/
namespace Verif.Crdt

/-- Replica identifiers (`u64` in `crdt/replica.rs`; unbounded here). -/
abbrev Rid := Nat

/-- The `idx`-th operation issued by replica `rid`. -/
structure Ev where
  rid : Rid
  idx : Nat
deriving DecidableEq

/-- What is remembered about an issued operation: the operation, the state it was issued on, and the
operations that state had received. -/
structure Issue (S Op : Type) where
  op : Op
  pre : S
  past : Set Ev

/-- A replica state (or a copy of it in the network) with the set of operations it has received. -/
structure Copy (S : Type) where
  state : S
  seen : Set Ev

/-- The replicated type: initial state of a replica, local operations, merge. -/
structure Rdt (S Op : Type) where
  init : Rid → S
  apply : Op → S → S
  merge : S → S → S

structure World (S Op : Type) where
  /-- operations issued so far by each replica, oldest first -/
  log : Rid → List (Issue S Op)
  node : Rid → Copy S
  /-- every copy ever sent -/
  pool : Set (Copy S)

variable {S Op : Type}

def World.start (T : Rdt S Op) : World S Op where
  log := fun _ => []
  node := fun r => ⟨T.init r, ∅⟩
  pool := ∅

def upd {A : Type} (f : Rid → A) (r : Rid) (a : A) : Rid → A := fun x => if x = r then a else f x

@[simp] theorem upd_same {A : Type} (f : Rid → A) (r : Rid) (a : A) : upd f r a r = a := by simp [upd]
@[simp] theorem upd_ne {A : Type} (f : Rid → A) {r x : Rid} (a : A) (h : x ≠ r) : upd f r a x = f x := by
  simp [upd, h]

/-- One event of the distributed execution. -/
inductive Step (T : Rdt S Op) : World S Op → World S Op → Prop
  /-- replica `r` performs `o` on its own copy -/
  | op (w : World S Op) (r : Rid) (o : Op) :
      Step T w {
        log := upd w.log r (w.log r ++ [⟨o, (w.node r).state, (w.node r).seen⟩])
        node := upd w.node r
          ⟨T.apply o (w.node r).state, insert ⟨r, (w.log r).length⟩ (w.node r).seen⟩
        pool := w.pool }
  /-- replica `r` sends its state -/
  | send (w : World S Op) (r : Rid) : Step T w { w with pool := insert (w.node r) w.pool }
  /-- a copy from the network is merged into replica `r` -/
  | recv (w : World S Op) (r : Rid) (c : Copy S) (h : c ∈ w.pool) :
      Step T w { w with
        node := upd w.node r ⟨T.merge (w.node r).state c.state, (w.node r).seen ∪ c.seen⟩ }

/-- The worlds some execution can reach. -/
inductive Reachable (T : Rdt S Op) : World S Op → Prop
  | start : Reachable T (World.start T)
  | step {w w'} : Reachable T w → Step T w w' → Reachable T w'

/-- A copy that exists somewhere: at a replica or in the network. -/
def World.Live (w : World S Op) (c : Copy S) : Prop := (∃ r, c = w.node r) ∨ c ∈ w.pool

/-- The operation behind an event. -/
def World.issue? (w : World S Op) (e : Ev) : Option (Issue S Op) := (w.log e.rid)[e.idx]?

theorem World.live_node (w : World S Op) (r : Rid) : w.Live (w.node r) := Or.inl ⟨r, rfl⟩

end Verif.Crdt
