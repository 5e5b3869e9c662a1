import Verif.Crdt.VClock
/-! # Registers and the delta buffer — models of `logicaffeine_data/src/crdt/{lww,mvregister,delta_buffer}.rs` -/
namespace Verif.Crdt

/-- `struct LWWRegister<T>` (lww.rs:24-29). -/
structure LWW (T : Type) where
  value : T
  timestamp : Nat
deriving DecidableEq

namespace LWW
variable {T : Type}
/-- `LWWRegister::set` (lww.rs:52-55). The timestamp is not compared with the current one. -/
def set (v : T) (ts : Nat) (_ : LWW T) : LWW T := ⟨v, ts⟩
/-- `LWWRegister::merge` (lww.rs:71-76). -/
def merge (self other : LWW T) : LWW T :=
  if other.timestamp ≥ self.timestamp then ⟨other.value, other.timestamp⟩ else self
/-- Replicas start from a common default (lww.rs:31-35); an operation is a timestamped write. -/
def rdt (v0 : T) : Rdt (LWW T) (T × Nat) := ⟨fun _ => ⟨v0, 0⟩, fun o s => s.set o.1 o.2, merge⟩
end LWW

/-- `struct MVRegister<T>` (mvregister.rs:23-29). -/
structure MVReg (T : Type) where
  values : List (T × VClock)
  replicaId : Rid

namespace MVReg
variable {T : Type} [DecidableEq T]
/-- `MVRegister::new` (mvregister.rs:33-38). -/
def new (id : Rid) : MVReg T := ⟨[], id⟩
/-- The clock loop of `set` (mvregister.rs:55-58) and `version` (mvregister.rs:160-167). -/
def joinClocks (vs : List (T × VClock)) : VClock := vs.foldl (fun acc p => acc.merge p.2) .new
/-- `MVRegister::set` (mvregister.rs:53-63). -/
def set (v : T) (s : MVReg T) : MVReg T :=
  { s with values := [(v, (joinClocks s.values).increment s.replicaId)] }
/-- `MVRegister::values` (mvregister.rs:69-71). -/
def vals (s : MVReg T) : List T := s.values.map Prod.fst
/-- The `is_dominated` closure (mvregister.rs:99-101). -/
def dominated (all : List (T × VClock)) (p : T × VClock) : Bool :=
  all.any (fun q => q.2.dominates p.2 && !q.2.beq p.2)
/-- The loop shared by `merge` (mvregister.rs:98-113) and `apply_delta` (mvregister.rs:141-154). -/
def keepMaximal (all : List (T × VClock)) : List (T × VClock) :=
  all.foldl (fun res p =>
    if dominated all p then res
    else if res.any (fun q => decide (q.1 = p.1) && q.2.beq p.2) then res
    else res ++ [p]) []
/-- `MVRegister::merge` (mvregister.rs:90-116). -/
def merge (self other : MVReg T) : MVReg T :=
  { self with values := keepMaximal (self.values ++ other.values) }
/-- `MVRegister::version` (mvregister.rs:160-167). -/
def version (s : MVReg T) : VClock := joinClocks s.values
/-- `MVRegister::delta_since` (mvregister.rs:124-134); the delta is the list of values. -/
def deltaSince (s : MVReg T) (since : VClock) : Option (List (T × VClock)) :=
  if since.dominates s.version then none else some s.values
/-- `MVRegister::apply_delta` (mvregister.rs:136-158). -/
def applyDelta (s : MVReg T) (d : List (T × VClock)) : MVReg T :=
  { s with values := keepMaximal (s.values ++ d) }
def rdt : Rdt (MVReg T) T := ⟨new, set, merge⟩
end MVReg

/-- `struct DeltaBuffer<D>` (delta_buffer.rs:15-23). -/
structure DeltaBuffer (D : Type) where
  deltas : List (VClock × D)
  maxSize : Nat
  oldest : VClock

namespace DeltaBuffer
variable {D : Type}
/-- `DeltaBuffer::new` (delta_buffer.rs:26-32). -/
def new (n : Nat) : DeltaBuffer D := ⟨[], n, .new⟩
/-- `DeltaBuffer::push` (delta_buffer.rs:35-42). -/
def push (b : DeltaBuffer D) (v : VClock) (d : D) : DeltaBuffer D :=
  if b.deltas.length ≥ b.maxSize then
    match b.deltas with
    | (ov, _) :: t => { b with deltas := t ++ [(v, d)], oldest := ov }
    | [] => { b with deltas := [(v, d)] }
  else { b with deltas := b.deltas ++ [(v, d)] }
/-- `DeltaBuffer::deltas_since` (delta_buffer.rs:48-64). -/
def deltasSince (b : DeltaBuffer D) (v : VClock) : Option (List D) :=
  if !b.oldest.beq .new && b.oldest.dominates v then none
  else some ((b.deltas.filter (fun p => !v.dominates p.1)).map Prod.snd)
/-- A history of pushes. -/
def pushAll (n : Nat) (l : List (VClock × D)) : DeltaBuffer D :=
  l.foldl (fun b p => b.push p.1 p.2) (new n)
end DeltaBuffer

end Verif.Crdt
