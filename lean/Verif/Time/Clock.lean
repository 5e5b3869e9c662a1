import Verif.Common.HMap
import Mathlib.Order.Basic
import Mathlib.Order.Lattice
import Mathlib.Order.MinMax
/-! # Hybrid logical clocks and the `SyncClock` of `logicaffeine_base::temporal` -/
namespace Verif.Time

/-- `Hlc`, base/src/temporal.rs:91-94.  `logical` is a `u32`. -/
structure Hlc where
  physical : Int
  logical : Nat
deriving DecidableEq, Repr

/-- `u32 + 1` as in a build without overflow checks (with them the wrap is a panic). -/
def bump (l : Nat) : Nat := (l + 1) % 4294967296

/-- The derived `Ord`: lexicographic. -/
def Hlc.lt (a b : Hlc) : Prop := a.physical < b.physical ∨ (a.physical = b.physical ∧ a.logical < b.logical)

instance (a b : Hlc) : Decidable (a.lt b) := by unfold Hlc.lt; infer_instance

/-- `Hlc::ZERO`, base/src/temporal.rs:98. -/
def Hlc.zero : Hlc := ⟨0, 0⟩

/-- `Hlc::tick`, base/src/temporal.rs:103-107. -/
def Hlc.tick (h : Hlc) (now : Int) : Hlc :=
  let physical := max h.physical now
  let logical := if physical = h.physical then bump h.logical else 0
  ⟨physical, logical⟩

/-- `Hlc::recv`, base/src/temporal.rs:112-124. -/
def Hlc.recv (h remote : Hlc) (now : Int) : Hlc :=
  let physical := max (max h.physical remote.physical) now
  let logical :=
    if physical = h.physical ∧ physical = remote.physical then bump (max h.logical remote.logical)
    else if physical = h.physical then bump h.logical
    else if physical = remote.physical then bump remote.logical
    else 0
  ⟨physical, logical⟩

/-- `self.hlc.max(other.hlc)` of the derived `Ord` (the second argument when equal). -/
def Hlc.max (a b : Hlc) : Hlc := if b.lt a then a else b

/-- `EstimateInterval`, base/src/temporal.rs:132-135. -/
structure Interval where
  lower : Int
  upper : Int
deriving DecidableEq, Repr

/-- `EstimateInterval::intersect`, base/src/temporal.rs:149-154. -/
def Interval.intersect (a b : Interval) : Interval := ⟨Max.max a.lower b.lower, Min.min a.upper b.upper⟩

/-- `EstimateInterval::contains`, base/src/temporal.rs:145-147. -/
def Interval.contains (a : Interval) (t : Int) : Bool := a.lower ≤ t && t ≤ a.upper

/-- `SyncClock`, base/src/temporal.rs:171-174.  The ordered map is modelled by its entries (`HMap`); the code
looks at it by key only. -/
structure SyncClock where
  hlc : Hlc
  knowledge : HMap Nat Interval

/-- `SyncClock::new`, base/src/temporal.rs:177-179. -/
def SyncClock.new : SyncClock := ⟨Hlc.zero, HMap.empty⟩

/-- `SyncClock::tick`, base/src/temporal.rs:182-184. -/
def SyncClock.tick (c : SyncClock) (now : Int) : SyncClock := ⟨c.hlc.tick now, c.knowledge⟩

/-- `entry(node).and_modify(|iv| *iv = iv.intersect(&interval)).or_insert(interval)`,
base/src/temporal.rs:190-193 and 202-205. -/
def learn (k : HMap Nat Interval) (node : Nat) (iv : Interval) : HMap Nat Interval :=
  match k.get? node with
  | some old => k.insert node (old.intersect iv)
  | none => k.insert node iv

/-- `SyncClock::observe`, base/src/temporal.rs:188-195. -/
def SyncClock.observe (c : SyncClock) (node : Nat) (iv : Interval) : SyncClock := ⟨c.hlc, learn c.knowledge node iv⟩

/-- `SyncClock::merge`, base/src/temporal.rs:200-209. -/
def SyncClock.merge (c d : SyncClock) : SyncClock :=
  ⟨c.hlc.max d.hlc, d.knowledge.fold c.knowledge (fun k n iv => learn k n iv)⟩

/-! ## Lemmas -/

theorem learn_get (k : HMap Nat Interval) (n a : Nat) (iv : Interval) :
    (learn k n iv).get? a = if n = a then some ((k.get? n).elim iv (fun o => o.intersect iv)) else k.get? a := by
  unfold learn
  cases h : k.get? n with
  | none => simp only [HMap.get?_insert, Option.elim, eq_comm]
  | some o => simp only [HMap.get?_insert, Option.elim, eq_comm]

/-- Combining what two clocks know about a node. -/
def joinIv : Option Interval → Option Interval → Option Interval
  | some a, some b => some (a.intersect b)
  | some a, none => some a
  | none, b => b

theorem fold_learn (l : List (Nat × Interval)) (nd : (l.map Prod.fst).Nodup) (k : HMap Nat Interval) (a : Nat) :
    (l.foldl (fun k e => learn k e.1 e.2) k).get? a = joinIv (k.get? a) (HMap.lookup a l) := by
  induction l generalizing k with
  | nil => cases h : k.get? a <;> simp [HMap.lookup, joinIv, h]
  | cons e t ih =>
    obtain ⟨n, iv⟩ := e
    rw [List.map_cons, List.nodup_cons] at nd
    rw [List.foldl_cons, ih nd.2, learn_get, HMap.lookup]
    by_cases h : n = a
    · subst h
      have hn : HMap.lookup n t = none := by
        cases hl : HMap.lookup n t with
        | none => rfl
        | some v =>
          have : (HMap.lookup n t).isSome = true := by rw [hl]; rfl
          rw [HMap.lookup_isSome] at this
          exact absurd this nd.1
      rw [if_pos rfl, if_pos rfl, hn]
      cases k.get? n <;> rfl
    · rw [if_neg h, if_neg h]

theorem merge_get (c d : SyncClock) (a : Nat) :
    (c.merge d).knowledge.get? a = joinIv (c.knowledge.get? a) (d.knowledge.get? a) :=
  fold_learn _ d.knowledge.nodup _ _

theorem Interval.intersect_comm (a b : Interval) : a.intersect b = b.intersect a := by
  simp [Interval.intersect, max_comm, min_comm]

theorem Interval.intersect_assoc (a b c : Interval) :
    (a.intersect b).intersect c = a.intersect (b.intersect c) := by
  simp [Interval.intersect, max_assoc, min_assoc]

theorem Interval.intersect_self (a : Interval) : a.intersect a = a := by simp [Interval.intersect]

theorem joinIv_comm (a b : Option Interval) : joinIv a b = joinIv b a := by
  cases a <;> cases b <;> simp [joinIv, Interval.intersect_comm]

theorem joinIv_assoc (a b c : Option Interval) : joinIv (joinIv a b) c = joinIv a (joinIv b c) := by
  cases a <;> cases b <;> cases c <;> simp [joinIv, Interval.intersect_assoc]

theorem joinIv_self (a : Option Interval) : joinIv a a = a := by
  cases a <;> simp [joinIv, Interval.intersect_self]

theorem Hlc.lt_trans {a b c : Hlc} (h1 : a.lt b) (h2 : b.lt c) : a.lt c := by
  simp only [Hlc.lt] at *; omega

theorem Hlc.lt_asymm {a b : Hlc} (h1 : a.lt b) : ¬ b.lt a := by
  simp only [Hlc.lt] at *; omega

theorem Hlc.lt_irrefl (a : Hlc) : ¬ a.lt a := by
  simp only [Hlc.lt]; omega

theorem Hlc.eq_of_not_lt {a b : Hlc} (h1 : ¬ a.lt b) (h2 : ¬ b.lt a) : a = b := by
  obtain ⟨p, l⟩ := a
  obtain ⟨q, m⟩ := b
  simp only [Hlc.lt, Hlc.mk.injEq] at *; omega

theorem Hlc.lt_of_not_lt {a b c : Hlc} (h1 : ¬ b.lt a) (h2 : b.lt c) : a.lt c := by
  simp only [Hlc.lt] at *; omega

theorem Hlc.max_comm (a b : Hlc) : a.max b = b.max a := by
  unfold Hlc.max
  by_cases h1 : b.lt a <;> by_cases h2 : a.lt b
  · exact absurd h2 (Hlc.lt_asymm h1)
  · rw [if_pos h1, if_neg h2]
  · rw [if_neg h1, if_pos h2]
  · rw [if_neg h1, if_neg h2]; exact (Hlc.eq_of_not_lt h2 h1).symm

theorem Hlc.max_self (a : Hlc) : a.max a = a := by simp [Hlc.max]

theorem Hlc.max_assoc (a b c : Hlc) : (a.max b).max c = a.max (b.max c) := by
  unfold Hlc.max
  by_cases h1 : b.lt a
  · rw [if_pos h1]
    by_cases h2 : c.lt b
    · rw [if_pos h2, if_pos h1, if_pos (Hlc.lt_trans h2 h1)]
    · rw [if_neg h2]
  · rw [if_neg h1]
    by_cases h2 : c.lt b
    · rw [if_pos h2, if_neg h1]
    · rw [if_neg h2]
      by_cases h3 : c.lt a
      · exact absurd (Hlc.lt_of_not_lt h2 h3) h1
      · rw [if_neg h3]

theorem tick_gt (h : Hlc) (now : Int) (hl : h.logical < 4294967295) :
    h.lt (h.tick now) ∧ now ≤ (h.tick now).physical ∧ (h.tick now).logical ≤ h.logical + 1 := by
  simp only [Hlc.tick, Hlc.lt, bump]
  by_cases e : max h.physical now = h.physical
  · rw [if_pos e]; omega
  · rw [if_neg e]; omega

theorem recv_gt (h r : Hlc) (now : Int) (hl : h.logical < 4294967295) (hr : r.logical < 4294967295) :
    h.lt (h.recv r now) ∧ r.lt (h.recv r now) ∧ now ≤ (h.recv r now).physical ∧
      (h.recv r now).logical ≤ max h.logical r.logical + 1 := by
  simp only [Hlc.recv, Hlc.lt, bump]
  obtain ⟨p, hp⟩ : ∃ p, p = max (max h.physical r.physical) now := ⟨_, rfl⟩
  rw [← hp]
  by_cases e1 : p = h.physical <;> by_cases e2 : p = r.physical
  · rw [if_pos ⟨e1, e2⟩]; omega
  · rw [if_neg (by simp [e2]), if_pos e1]; omega
  · rw [if_neg (by simp [e1]), if_neg e1, if_pos e2]; omega
  · rw [if_neg (by simp [e1]), if_neg e1, if_neg e2]; omega

end Verif.Time
