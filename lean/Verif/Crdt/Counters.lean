import Verif.Crdt.VClock
/-! # Counters — model of `logicaffeine_data/src/crdt/gcounter.rs` and `pncounter.rs` -/
namespace Verif.Crdt

/-- The loop shared by `GCounter::merge` and `PNCounter::merge`: per-replica maximum
(gcounter.rs:71-76, pncounter.rs:88-97). -/
def mergeCounts (self other : HMap Rid Nat) : HMap Rid Nat :=
  other.fold self (fun acc r count => acc.upsert r 0 (fun x => max x count))

/-- `struct GCounter` (gcounter.rs:20-25). Counts are unbounded naturals (`u64` overflow is not
modelled). -/
structure GCounter where
  counts : HMap Rid Nat
  replicaId : Rid

namespace GCounter
/-- `GCounter::with_replica_id` (gcounter.rs:37-42). -/
def new (id : Rid) : GCounter := ⟨.empty, id⟩
/-- `GCounter::increment` (gcounter.rs:45-47). -/
def increment (amount : Nat) (c : GCounter) : GCounter :=
  { c with counts := c.counts.upsert c.replicaId 0 (· + amount) }
/-- `GCounter::value` (gcounter.rs:50-52). -/
def value (c : GCounter) : Nat := c.counts.values.sum
/-- `GCounter::merge` (gcounter.rs:71-76). -/
def merge (self other : GCounter) : GCounter := { self with counts := mergeCounts self.counts other.counts }
/-- The type as used in a distributed system; the operations are the amounts incremented by. -/
def rdt : Rdt GCounter Nat := ⟨new, increment, merge⟩
end GCounter

/-- `struct PNCounter` (pncounter.rs:25-36). -/
structure PNCounter where
  increments : HMap Rid Nat
  decrements : HMap Rid Nat
  replicaId : Rid
  version : VClock

/-- `struct PNCounterDelta` (pncounter.rs:14-19). -/
structure PNCounterDelta where
  increments : HMap Rid Nat
  decrements : HMap Rid Nat
  version : VClock

inductive PNOp
  | inc (amount : Nat)
  | dec (amount : Nat)
deriving DecidableEq

namespace PNCounter
/-- `PNCounter::with_replica_id` (pncounter.rs:50-57). -/
def new (id : Rid) : PNCounter := ⟨.empty, .empty, id, .new⟩
/-- `PNCounter::increment` (pncounter.rs:60-63). -/
def increment (amount : Nat) (c : PNCounter) : PNCounter :=
  { c with increments := c.increments.upsert c.replicaId 0 (· + amount)
           version := c.version.increment c.replicaId }
/-- `PNCounter::decrement` (pncounter.rs:66-69). -/
def decrement (amount : Nat) (c : PNCounter) : PNCounter :=
  { c with decrements := c.decrements.upsert c.replicaId 0 (· + amount)
           version := c.version.increment c.replicaId }
/-- `PNCounter::value` (pncounter.rs:72-76); the casts to `i64` are exact because there is no bound. -/
def value (c : PNCounter) : Int := (c.increments.values.sum : Int) - (c.decrements.values.sum : Int)
/-- `PNCounter::merge` (pncounter.rs:88-98). -/
def merge (self other : PNCounter) : PNCounter :=
  { self with increments := mergeCounts self.increments other.increments
              decrements := mergeCounts self.decrements other.decrements
              version := self.version.merge other.version }
/-- `PNCounter::delta_since` (pncounter.rs:104-117). -/
def deltaSince (c : PNCounter) (since : VClock) : Option PNCounterDelta :=
  if since.dominates c.version then none
  else some ⟨c.increments, c.decrements, c.version⟩
/-- `PNCounter::apply_delta` (pncounter.rs:119-130). -/
def applyDelta (c : PNCounter) (d : PNCounterDelta) : PNCounter :=
  { c with increments := mergeCounts c.increments d.increments
           decrements := mergeCounts c.decrements d.decrements
           version := c.version.merge d.version }
def apply : PNOp → PNCounter → PNCounter
  | .inc n => increment n
  | .dec n => decrement n
def rdt : Rdt PNCounter PNOp := ⟨new, apply, merge⟩
end PNCounter

end Verif.Crdt
