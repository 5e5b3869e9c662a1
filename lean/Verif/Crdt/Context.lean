import Verif.Crdt.VClock
/-! # Causal contexts — model of `logicaffeine_data/src/crdt/causal/{dot,context}.rs` -/
namespace Verif.Crdt

/-- `struct Dot` (dot.rs:13-19). -/
structure Dot where
  replica : Rid
  counter : Nat
deriving DecidableEq

/-- `struct DotContext` (context.rs:16-22). The `HashSet<Dot>` is a list used only through membership,
insertion and removal. -/
structure DotContext where
  clock : VClock
  cloud : List Dot

namespace DotContext

/-- `DotContext::new` (context.rs:26-28). -/
def new : DotContext := ⟨.new, []⟩

/-- `DotContext::next` (context.rs:31-34): new context and the dot handed out. -/
def next (c : DotContext) (r : Rid) : DotContext × Dot :=
  ({ c with clock := c.clock.increment r }, ⟨r, c.clock.incrementVal r⟩)

/-- `DotContext::has_seen` (context.rs:37-39). -/
def hasSeen (c : DotContext) (d : Dot) : Bool :=
  decide (c.clock.get d.replica ≥ d.counter) || decide (d ∈ c.cloud)

/-- The loop of `compact_replica` (context.rs:60-68). `fuel` bounds the number of iterations;
`compactReplica_done` below shows that it never runs out. -/
def compactLoop (r : Rid) : Nat → DotContext → DotContext
  | 0, c => c
  | fuel + 1, c =>
    let d : Dot := ⟨r, c.clock.get r + 1⟩
    if d ∈ c.cloud then
      compactLoop r fuel ⟨c.clock.increment r, c.cloud.filter (fun x => decide (x ≠ d))⟩
    else c

/-- `DotContext::compact_replica` (context.rs:59-69). -/
def compactReplica (c : DotContext) (r : Rid) : DotContext := compactLoop r c.cloud.length c

/-- `DotContext::add` (context.rs:45-56). -/
def add (c : DotContext) (d : Dot) : DotContext :=
  if d.counter = c.clock.get d.replica + 1 then
    compactReplica { c with clock := c.clock.increment d.replica } d.replica
  else if d.counter > c.clock.get d.replica then
    { c with cloud := c.cloud.insert d }
  else c

/-- `DotContext::compact` (context.rs:72-77). -/
def compact (c : DotContext) : DotContext :=
  (c.cloud.map Dot.replica).foldl compactReplica c

/-- `DotContext::merge` (context.rs:80-88). -/
def merge (self other : DotContext) : DotContext :=
  (other.cloud.foldl (fun (c : DotContext) d => if c.hasSeen d then c else { c with cloud := c.cloud.insert d })
    { self with clock := self.clock.merge other.clock }).compact

/-! helper lemmas -/

theorem hasSeen_iff {c : DotContext} {d : Dot} :
    c.hasSeen d = true ↔ d.counter ≤ c.clock.get d.replica ∨ d ∈ c.cloud := by
  simp [hasSeen]

theorem compactLoop_seen (r : Rid) (fuel : Nat) (c : DotContext) (d : Dot) :
    (compactLoop r fuel c).hasSeen d = c.hasSeen d := by
  induction fuel generalizing c with
  | zero => rfl
  | succ n ih =>
    simp only [compactLoop]
    split
    · next h =>
      rw [ih]
      rw [Bool.eq_iff_iff, hasSeen_iff, hasSeen_iff]
      simp only [VClock.get_increment, List.mem_filter, decide_eq_true_eq]
      by_cases hr : d.replica = r
      · rw [if_pos hr]
        constructor
        · rintro (h1 | h1)
          · by_cases h2 : d.counter ≤ c.clock.get d.replica
            · exact Or.inl h2
            · right
              have : d = ⟨r, c.clock.get r + 1⟩ := by
                cases d; simp only at hr h1 h2 ⊢; subst hr; congr 1; omega
              rw [this]; exact h
          · exact Or.inr h1.1
        · rintro (h1 | h1)
          · left; omega
          · by_cases h2 : d = ⟨r, c.clock.get r + 1⟩
            · left; rw [h2]
            · exact Or.inr ⟨h1, h2⟩
      · rw [if_neg hr]
        have : d ≠ ⟨r, c.clock.get r + 1⟩ := by rintro rfl; exact hr rfl
        simp [this]
    · rfl

theorem filter_length_lt {l : List Dot} {d : Dot} (h : d ∈ l) :
    (l.filter (fun x => decide (x ≠ d))).length < l.length := by
  rcases Nat.lt_or_ge (l.filter (fun x => decide (x ≠ d))).length l.length with h1 | h1
  · exact h1
  · exfalso
    have h2 := List.length_filter_le (fun x => decide (x ≠ d)) l
    have h3 : l.filter (fun x => decide (x ≠ d)) = l := List.filter_eq_self.2
      (List.length_filter_eq_length_iff.1 (by omega))
    rw [← h3] at h
    have := (List.mem_filter.1 h).2
    simp at this

/-- The loop stops because the next dot is not waiting, never because the fuel ran out. -/
theorem compactLoop_done (r : Rid) (fuel : Nat) (c : DotContext) (h : c.cloud.length ≤ fuel) :
    (⟨r, (compactLoop r fuel c).clock.get r + 1⟩ : Dot) ∉ (compactLoop r fuel c).cloud := by
  induction fuel generalizing c with
  | zero =>
    have : c.cloud = [] := List.length_eq_zero_iff.1 (by omega)
    simp [compactLoop, this]
  | succ n ih =>
    simp only [compactLoop]
    split
    · next h1 =>
      apply ih
      have := filter_length_lt h1
      simp only at *
      omega
    · next h1 => exact h1

theorem compactReplica_done (c : DotContext) (r : Rid) :
    (⟨r, (c.compactReplica r).clock.get r + 1⟩ : Dot) ∉ (c.compactReplica r).cloud :=
  compactLoop_done r _ c (Nat.le_refl _)

theorem compactReplica_seen (c : DotContext) (r : Rid) (d : Dot) :
    (c.compactReplica r).hasSeen d = c.hasSeen d := compactLoop_seen ..

theorem compact_seen (c : DotContext) (d : Dot) : c.compact.hasSeen d = c.hasSeen d := by
  rw [compact]
  generalize c.cloud.map Dot.replica = l
  induction l generalizing c with
  | nil => rfl
  | cons r t ih => rw [List.foldl_cons, ih, compactReplica_seen]

theorem add_seen (c : DotContext) (d x : Dot) :
    (c.add d).hasSeen x = true ↔ c.hasSeen x = true ∨ x = d := by
  rw [add]
  split
  · next h =>
    rw [compactReplica_seen, hasSeen_iff, hasSeen_iff]
    simp only [VClock.get_increment]
    by_cases hr : x.replica = d.replica
    · rw [if_pos hr]
      constructor
      · rintro (h1 | h1)
        · by_cases h2 : x.counter ≤ c.clock.get x.replica
          · exact Or.inl (Or.inl h2)
          · right; rw [hr] at h1 h2; cases x; cases d; simp only at *; subst hr; congr 1; omega
        · exact Or.inl (Or.inr h1)
      · rintro ((h1 | h1) | rfl)
        · left; omega
        · exact Or.inr h1
        · left; omega
    · rw [if_neg hr]
      have : x ≠ d := by rintro rfl; exact hr rfl
      simp [this]
  · split
    · simp only [hasSeen_iff, List.mem_insert_iff]
      constructor
      · rintro (h | h | h)
        · exact Or.inl (Or.inl h)
        · exact Or.inr h
        · exact Or.inl (Or.inr h)
      · rintro ((h | h) | h)
        · exact Or.inl h
        · exact Or.inr (Or.inr h)
        · exact Or.inr (Or.inl h)
    · next h1 h2 =>
      constructor
      · exact Or.inl
      · rintro (h | rfl)
        · exact h
        · rw [hasSeen_iff]; left; omega

theorem merge_fold_seen (l : List Dot) (c : DotContext) (x : Dot) :
    (l.foldl (fun (c : DotContext) d => if c.hasSeen d then c else { c with cloud := c.cloud.insert d }) c).hasSeen x
      = true ↔ c.hasSeen x = true ∨ x ∈ l := by
  induction l generalizing c with
  | nil => simp
  | cons d t ih =>
    rw [List.foldl_cons, ih]
    have : ((if c.hasSeen d = true then c else { c with cloud := c.cloud.insert d }).hasSeen x = true)
        ↔ c.hasSeen x = true ∨ x = d := by
      split
      · next h =>
        constructor
        · exact Or.inl
        · rintro (h' | rfl)
          · exact h'
          · exact h
      · simp only [hasSeen_iff, List.mem_insert_iff]
        constructor
        · rintro (h | h | h)
          · exact Or.inl (Or.inl h)
          · exact Or.inr h
          · exact Or.inl (Or.inr h)
        · rintro ((h | h) | h)
          · exact Or.inl h
          · exact Or.inr (Or.inr h)
          · exact Or.inr (Or.inl h)
    rw [this, List.mem_cons, or_assoc]

theorem merge_seen (a b : DotContext) (x : Dot) :
    (a.merge b).hasSeen x = true ↔ a.hasSeen x = true ∨ b.hasSeen x = true := by
  rw [merge, compact_seen, merge_fold_seen]
  simp only [hasSeen_iff, VClock.get_merge]
  constructor
  · rintro ((h | h) | h)
    · rcases Nat.le_total (a.clock.get x.replica) (b.clock.get x.replica) with h' | h'
      · right; left; omega
      · left; left; omega
    · exact Or.inl (Or.inr h)
    · exact Or.inr (Or.inr h)
  · rintro ((h | h) | (h | h))
    · left; left; omega
    · exact Or.inl (Or.inr h)
    · left; left; omega
    · exact Or.inr h

theorem next_seen (c : DotContext) (r : Rid) (x : Dot) :
    (c.next r).1.hasSeen x = true ↔ c.hasSeen x = true ∨ x = (c.next r).2 := by
  simp only [next, hasSeen_iff, VClock.get_increment, VClock.incrementVal]
  by_cases hr : x.replica = r
  · rw [if_pos hr]
    constructor
    · rintro (h1 | h1)
      · by_cases h2 : x.counter ≤ c.clock.get x.replica
        · exact Or.inl (Or.inl h2)
        · right; cases x; simp only [VClock.get] at *; subst hr; congr 1; omega
      · exact Or.inl (Or.inr h1)
    · rintro ((h1 | h1) | rfl)
      · left; omega
      · exact Or.inr h1
      · left; exact Nat.le_refl _
  · rw [if_neg hr]
    have : x ≠ ⟨r, c.clock.entries.getD r 0 + 1⟩ := by rintro rfl; exact hr rfl
    simp [this]

end DotContext
end Verif.Crdt
