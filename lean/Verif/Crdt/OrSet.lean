import Verif.Crdt.Context
import Mathlib.Data.List.Dedup
/-! # OR-Set and OR-Map — models of `logicaffeine_data/src/crdt/{orset,ormap}.rs` -/
namespace Verif.Crdt

/-- `trait SetBias` (orset.rs:40-59): `resolve(local_has_dots, remote_has_dots, local_removed,
remote_removed)`. -/
abbrev Bias := Bool → Bool → Bool → Bool → Bool

/-- `AddWins::resolve` (orset.rs:70-79). -/
def addWins : Bias := fun localHas remoteHas _ _ => localHas || remoteHas

/-- `RemoveWins::resolve` (orset.rs:90-105). -/
def removeWins : Bias := fun localHas remoteHas localRemoved remoteRemoved =>
  if localRemoved || remoteRemoved then false else localHas || remoteHas

/-- `struct ORSet<T, B>` (orset.rs:112-124). A `HashSet<Dot>` is a list used only through membership. -/
structure ORSet (T : Type) where
  entries : HMap T (List Dot)
  context : DotContext
  replicaId : Rid

inductive SetOp (T : Type)
  | add (x : T)
  | remove (x : T)
deriving DecidableEq

namespace ORSet
variable {T : Type} [DecidableEq T]

/-- `ORSet::new` (orset.rs:128-135). -/
def new (id : Rid) : ORSet T := ⟨.empty, .new, id⟩

/-- `ORSet::add` (orset.rs:143-146). -/
def add (x : T) (s : ORSet T) : ORSet T :=
  let p := s.context.next s.replicaId
  { s with context := p.1, entries := s.entries.upsert x [] (fun ds => ds.insert p.2) }

/-- `ORSet::remove` (orset.rs:156-158). -/
def remove (x : T) (s : ORSet T) : ORSet T := { s with entries := s.entries.erase x }

/-- `ORSet::contains` (orset.rs:161-165). -/
def contains (s : ORSet T) (x : T) : Bool :=
  match s.entries.get? x with
  | none => false
  | some dots => !dots.isEmpty

/-- `ORSet::iter` (orset.rs:181-186). -/
def iter (s : ORSet T) : List T := (s.entries.entries.filter (fun e => !e.2.isEmpty)).map Prod.fst

/-- `ORSet::len` (orset.rs:168-173). -/
def len (s : ORSet T) : Nat := (s.entries.values.filter (fun ds => !ds.isEmpty)).length

/-- Body of the loop of `ORSet::merge` for one element (orset.rs:211-258). -/
def mergeDots (bias : Bias) (mine other : DotContext) (myDots otherDots : List Dot) : List Dot :=
  let myRemoved := myDots.isEmpty && otherDots.any (fun d => mine.hasSeen d)
  let otherRemoved := otherDots.isEmpty && myDots.any (fun d => other.hasSeen d)
  let c1 := myDots.foldl (fun acc d =>
    if !other.hasSeen d || decide (d ∈ otherDots) then acc.insert d else acc) []
  let combined := otherDots.foldl (fun acc d =>
    if !mine.hasSeen d || decide (d ∈ myDots) then acc.insert d else acc) c1
  if bias (!myDots.isEmpty) (!otherDots.isEmpty) myRemoved otherRemoved then combined else []

/-- `ORSet::merge` (orset.rs:201-267). -/
def merge (bias : Bias) (self other : ORSet T) : ORSet T :=
  let allKeys := (self.entries.keys ++ other.entries.keys).dedup
  let entries := allKeys.foldl (fun acc v =>
    acc.insert v (mergeDots bias self.context other.context (acc.getD v []) (other.entries.getD v [])))
    self.entries
  { self with
    entries := entries.retain (fun _ dots => !dots.isEmpty)
    context := self.context.merge other.context }

/-- `struct ORSetDelta` (orset.rs:19-22) and `ORSet::delta_since` (orset.rs:275-300). -/
def deltaSince (s : ORSet T) (since : VClock) : Option (HMap T (List Dot) × DotContext) :=
  if since.dominates s.context.clock then none
  else some (s.entries.fold (.empty, .new) (fun acc v dots =>
    let fresh := dots.filter (fun d => decide (d.counter > since.get d.replica))
    if fresh.isEmpty then acc
    else (acc.1.insert v fresh, fresh.foldl DotContext.add acc.2)))

/-- `ORSet::apply_delta` (orset.rs:302-311). -/
def applyDelta (bias : Bias) (s : ORSet T) (d : HMap T (List Dot) × DotContext) : ORSet T :=
  s.merge bias ⟨d.1, d.2, 0⟩

def apply : SetOp T → ORSet T → ORSet T
  | .add x => add x
  | .remove x => remove x

def rdt (bias : Bias) : Rdt (ORSet T) (SetOp T) := ⟨new, apply, merge bias⟩

/-- the active dots of an element -/
def dots (s : ORSet T) (x : T) : List Dot := s.entries.getD x []

end ORSet

/-- `struct ORMap<K, V>` (ormap.rs:30-39); `V`'s `Merge` and `Default` are passed to the functions that
use them. -/
structure ORMap (K V : Type) where
  keys : HMap K (List Dot)
  values : HMap K V
  context : DotContext
  replicaId : Rid

inductive MapOp (K V : Type)
  /-- `f(map.get_or_insert(k))` -/
  | update (k : K) (f : V → V)
  /-- `if let Some(v) = map.get_mut(&k) { f(v) }` -/
  | modify (k : K) (f : V → V)
  | remove (k : K)

namespace ORMap
variable {K V : Type} [DecidableEq K]

/-- `ORMap::new` (ormap.rs:43-50). -/
def new (id : Rid) : ORMap K V := ⟨.empty, .empty, .new, id⟩

/-- `ORMap::contains_key` (ormap.rs:88-92). -/
def containsKey (m : ORMap K V) (k : K) : Bool :=
  match m.keys.get? k with
  | none => false
  | some dots => !dots.isEmpty

/-- `ORMap::get` (ormap.rs:58-64). -/
def get (m : ORMap K V) (k : K) : Option V := if m.containsKey k then m.values.get? k else none

/-- `ORMap::get_or_insert` (ormap.rs:68-75) followed by a mutation `f` of the value handed out. -/
def update (dflt : V) (k : K) (f : V → V) (m : ORMap K V) : ORMap K V :=
  let p := m.context.next m.replicaId
  { m with context := p.1
           keys := m.keys.upsert k [] (fun ds => ds.insert p.2)
           values := m.values.upsert k dflt f }

/-- `ORMap::get_mut` (ormap.rs:79-85) followed by a mutation `f` when it answers. -/
def modify (k : K) (f : V → V) (m : ORMap K V) : ORMap K V :=
  if m.containsKey k then
    match m.values.get? k with
    | some v => { m with values := m.values.insert k (f v) }
    | none => m
  else m

/-- `ORMap::remove` (ormap.rs:95-97). -/
def remove (k : K) (m : ORMap K V) : ORMap K V := { m with keys := m.keys.erase k }

/-- First loop of `merge` (ormap.rs:133-136): values of all keys are merged. -/
def mergeValues (vmerge : V → V → V) (dflt : V) (mine other : HMap K V) : HMap K V :=
  other.fold mine (fun acc k ov => acc.upsert k dflt (fun v => vmerge v ov))

/-- Second loop of `merge` (ormap.rs:139-148): other's dots we have not seen. -/
def addKeys (ctx : DotContext) (mine other : HMap K (List Dot)) : HMap K (List Dot) :=
  other.fold mine (fun acc k ods =>
    acc.upsert k [] (fun ds => ods.foldl (fun ds d => if !ctx.hasSeen d then ds.insert d else ds) ds))

/-- Third loop of `merge` (ormap.rs:151-168): drop the dots other has seen and no longer has. -/
def dropKeys (octx : DotContext) (mine other : HMap K (List Dot)) : HMap K (List Dot) :=
  mine.keys.foldl (fun acc k =>
    match acc.get? k with
    | none => acc
    | some ds => acc.insert k
      (match other.get? k with
       | none => ds.filter (fun d => !octx.hasSeen d)
       | some ods => ds.filter (fun d => !octx.hasSeen d || decide (d ∈ ods)))) mine

/-- `ORMap::merge` (ormap.rs:130-174). -/
def merge (vmerge : V → V → V) (dflt : V) (self other : ORMap K V) : ORMap K V :=
  { self with
    values := mergeValues vmerge dflt self.values other.values
    keys := (dropKeys other.context (addKeys self.context self.keys other.keys) other.keys).retain
      (fun _ ds => !ds.isEmpty)
    context := self.context.merge other.context }

/-- `ORMap::apply_delta` (ormap.rs:197-219): as `merge` but without the removal loop. -/
def applyDelta (vmerge : V → V → V) (dflt : V) (self delta : ORMap K V) : ORMap K V :=
  { self with
    values := mergeValues vmerge dflt self.values delta.values
    keys := (addKeys self.context self.keys delta.keys).retain (fun _ ds => !ds.isEmpty)
    context := self.context.merge delta.context }

/-- `ORMap::delta_since` (ormap.rs:184-195); the delta is the state without the replica id. -/
def deltaSince (m : ORMap K V) (since : VClock) : Option (ORMap K V) :=
  if since.dominates m.context.clock then none else some m

def apply (dflt : V) : MapOp K V → ORMap K V → ORMap K V
  | .update k f => update dflt k f
  | .modify k f => modify k f
  | .remove k => remove k

def rdt (vmerge : V → V → V) (dflt : V) : Rdt (ORMap K V) (MapOp K V) :=
  ⟨new, apply dflt, merge vmerge dflt⟩

def dots (m : ORMap K V) (k : K) : List Dot := m.keys.getD k []

end ORMap
end Verif.Crdt
