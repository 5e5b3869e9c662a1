import Verif.Common.HMap
import Verif.Crdt.World
/-! # Vector clocks — model of `logicaffeine_data/src/crdt/causal/vclock.rs` -/
namespace Verif.Crdt

/-- `struct VClock { entries: HashMap<ReplicaId, u64> }` (vclock.rs:14-17). Counters are unbounded
naturals: overflow of a `u64` event counter is not modelled. -/
structure VClock where
  entries : HMap Rid Nat

namespace VClock

/-- `VClock::new` (vclock.rs:21-23). -/
def new : VClock := ⟨.empty⟩

/-- `VClock::get` (vclock.rs:33-35). -/
def get (c : VClock) (r : Rid) : Nat := c.entries.getD r 0

/-- `VClock::increment` (vclock.rs:26-30), the new clock. -/
def increment (c : VClock) (r : Rid) : VClock := ⟨c.entries.upsert r 0 (· + 1)⟩

/-- `VClock::increment` (vclock.rs:26-30), the returned counter. -/
def incrementVal (c : VClock) (r : Rid) : Nat := c.entries.getD r 0 + 1

/-- `VClock::dominates` (vclock.rs:40-47): early return from the loop over `other`'s entries. -/
def dominates (self other : VClock) : Bool :=
  other.entries.entries.all (fun e => ¬ (self.get e.1 < e.2))

/-- `VClock::concurrent` (vclock.rs:50-52). -/
def concurrent (self other : VClock) : Bool := !self.dominates other && !other.dominates self

/-- `VClock::merge_vclock` (vclock.rs:55-60). -/
def merge (self other : VClock) : VClock :=
  ⟨other.entries.fold self.entries (fun acc r count => acc.upsert r 0 (fun x => max x count))⟩

/-- Derived `PartialEq` (vclock.rs:14): equality of hash maps.  An explicit zero entry differs from an
absent one. -/
def beq (a b : VClock) : Bool :=
  a.entries.entries.all (fun e => b.entries.get? e.1 = some e.2) &&
  b.entries.entries.all (fun e => a.entries.get? e.1 = some e.2)

/-! helper lemmas -/

@[simp] theorem get_new (r : Rid) : new.get r = 0 := rfl

theorem get_increment (c : VClock) (r x : Rid) :
    (c.increment r).get x = if x = r then c.get x + 1 else c.get x := by
  simp only [increment, get, HMap.getD_upsert]

theorem get_merge (a b : VClock) (r : Rid) : (a.merge b).get r = max (a.get r) (b.get r) := by
  simp only [merge, get]
  rw [HMap.fold_upsert_getD b.entries a.entries 0 (fun x y => max x y)]
  simp only [HMap.getD]
  cases h : b.entries.get? r <;> simp

theorem dominates_iff {a b : VClock} : a.dominates b = true ↔ ∀ r, b.get r ≤ a.get r := by
  simp only [dominates, List.all_eq_true, decide_eq_true_eq, Nat.not_lt]
  constructor
  · intro h r
    cases hb : b.entries.get? r with
    | none => simp [get, HMap.getD, hb]
    | some v =>
      have := h (r, v) (HMap.get?_eq_some.1 hb)
      simpa [get, HMap.getD, hb] using this
  · rintro h ⟨r, v⟩ he
    have := h r
    have hb := HMap.get?_eq_some.2 he
    simpa [get, HMap.getD, hb] using this

theorem beq_iff {a b : VClock} : a.beq b = true ↔ a.entries.Same b.entries := by
  simp only [beq, Bool.and_eq_true, List.all_eq_true, decide_eq_true_eq, HMap.Same]
  constructor
  · rintro ⟨h1, h2⟩ k
    cases ha : a.entries.get? k with
    | some v => exact (h1 _ (HMap.get?_eq_some.1 ha)).symm
    | none =>
      cases hb : b.entries.get? k with
      | none => rfl
      | some v => have := h2 _ (HMap.get?_eq_some.1 hb); simp only at this; rw [ha] at this; cases this
  · intro h
    exact ⟨fun e he => by rw [← h]; exact HMap.get?_eq_some.2 he,
      fun e he => by rw [h]; exact HMap.get?_eq_some.2 he⟩

end VClock
end Verif.Crdt
