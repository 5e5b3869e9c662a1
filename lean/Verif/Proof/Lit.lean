/-!
# Literals, clauses and their meaning

Shared by the propositional checkers. The meaning (`Lit.holds`, `Models`) is the textbook one and
is the specification the checker theorems are stated against.
-/

namespace Verif.Proof

/-- A literal: a variable and a sign (`crates/logicaffeine_proof/src/cdcl.rs:27`).
Simplification: the code packs it as `var << 1 | negated` in a `u32`; variables are below `2^31`
there and unbounded here. -/
structure Lit where
  var : Nat
  pos : Bool
  deriving DecidableEq, Repr

namespace Lit

/-- `cdcl.rs:61-63`. -/
def negated (l : Lit) : Lit := ⟨l.var, !l.pos⟩

/-- Specification: truth of a literal under a total assignment. -/
def holds (τ : Nat → Bool) (l : Lit) : Prop := τ l.var = l.pos

instance (τ : Nat → Bool) (l : Lit) : Decidable (l.holds τ) :=
  inferInstanceAs (Decidable (_ = _))

@[simp] theorem negated_var (l : Lit) : l.negated.var = l.var := rfl
@[simp] theorem negated_pos (l : Lit) : l.negated.pos = !l.pos := rfl
@[simp] theorem negated_negated (l : Lit) : l.negated.negated = l := by
  cases l; simp [negated]

theorem holds_negated (τ : Nat → Bool) (l : Lit) : l.negated.holds τ ↔ ¬ l.holds τ := by
  unfold holds negated
  cases τ l.var <;> cases l.pos <;> simp

theorem negated_ne (l : Lit) : l.negated ≠ l := by
  cases l with
  | mk v p => cases p <;> simp [negated]

theorem negated_eq_iff (l m : Lit) : l.negated = m ↔ l = m.negated := by
  constructor
  · rintro rfl; simp
  · rintro rfl; simp

end Lit

/-- A clause is a list of literals, read disjunctively. -/
abbrev Clause := List Lit

/-- Specification: a clause holds when one of its literals does. -/
def Clause.holds (τ : Nat → Bool) (c : Clause) : Prop := ∃ l ∈ c, l.holds τ

/-- Specification: an assignment satisfies a clause set. -/
def Models (τ : Nat → Bool) (db : List Clause) : Prop := ∀ c ∈ db, Clause.holds τ c

/-- Specification: a clause set has a satisfying assignment. -/
def Satisfiable (db : List Clause) : Prop := ∃ τ, Models τ db

theorem models_append {τ : Nat → Bool} {a b : List Clause} :
    Models τ (a ++ b) ↔ Models τ a ∧ Models τ b := by
  simp only [Models, List.mem_append]
  constructor
  · intro h; exact ⟨fun c hc => h c (Or.inl hc), fun c hc => h c (Or.inr hc)⟩
  · rintro ⟨h1, h2⟩ c (hc | hc)
    · exact h1 c hc
    · exact h2 c hc

theorem models_cons {τ : Nat → Bool} {a : Clause} {b : List Clause} :
    Models τ (a :: b) ↔ Clause.holds τ a ∧ Models τ b := by
  simp [Models]

theorem models_singleton {τ : Nat → Bool} {a : Clause} : Models τ [a] ↔ Clause.holds τ a := by
  simp [Models]

end Verif.Proof
