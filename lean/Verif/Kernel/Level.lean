/-!
# Universe levels

`/repo/crates/logicaffeine_kernel/src/term.rs` 152-433: level expressions, their algebra, and the decision
procedure for the order between them.
-/
namespace Verif.Level

/-- `Universe` (`term.rs` 169-191).  The number of `Type` is a `u32`. -/
inductive Universe
  | sprop
  | prop
  | type (n : Nat)
  | var (v : String)
  | succ (l : Universe)
  | max (a b : Universe)
  | imax (a b : Universe)
  deriving DecidableEq, Inhabited

/-- `LNat` (`term.rs` 273-280). -/
inductive LNat
  | const (n : Nat)
  | var (v : String)
  | succ (l : LNat)
  | max (a b : LNat)
  | imax (a b : LNat)
  deriving DecidableEq

/-- `to_lnat` (`term.rs` 282-294). -/
def toLnat : Universe → LNat
  | .sprop => .const 0
  | .prop => .const 0
  | .type n => .const (n + 1)
  | .var v => .var v
  | .succ l => .succ (toLnat l)
  | .max a b => .max (toLnat a) (toLnat b)
  | .imax a b => .imax (toLnat a) (toLnat b)

/-- The `IMax` case of `simp_lnat`, once both arguments are simplified (`term.rs` 308-325).  The code calls
`simp_lnat` on the terms built here, whose parts are simplified already; `simp_equation` proves that this
makes no difference. -/
def simpIMax (a : LNat) : LNat → LNat
  | .const 0 => .const 0
  | .const (n + 1) => .max a (.const (n + 1))
  | .succ l => .max a (.succ l)
  | .max b1 b2 => .max (simpIMax a b1) (simpIMax a b2)
  | .imax b1 b2 => simpIMax (.max a b1) b2
  | .var v => .imax a (.var v)

/-- `simp_lnat` (`term.rs` 300-328). -/
def simp : LNat → LNat
  | .const n => .const n
  | .var v => .var v
  | .succ l => .succ (simp l)
  | .max a b => .max (simp a) (simp b)
  | .imax a b => simpIMax (simp a) (simp b)

/-- `imax_pivot` (`term.rs` 332-342). -/
def pivot : LNat → Option String
  | .const _ => none
  | .var _ => none
  | .succ l => pivot l
  | .max a b => (pivot a).or (pivot b)
  | .imax _ (.var v) => some v
  | .imax a b => (pivot a).or (pivot b)

/-- `subst_lnat` (`term.rs` 345-363). -/
def substL (v : String) (r : LNat) : LNat → LNat
  | .const n => .const n
  | .var x => if x = v then r else .var x
  | .succ l => .succ (substL v r l)
  | .max a b => .max (substL v r a) (substL v r b)
  | .imax a b => .imax (substL v r a) (substL v r b)

/-- `lnat_atoms` (`term.rs` 367-379).  `none` is the `unreachable!`. -/
def atoms : Nat → LNat → Option (List (Option String × Nat))
  | off, .const c => some [(none, c + off)]
  | off, .var v => some [(some v, off)]
  | off, .succ l => atoms (off + 1) l
  | off, .max a b =>
    match atoms off a, atoms off b with
    | some x, some y => some (x ++ y)
    | _, _ => none
  | _, .imax _ _ => none

/-- `b_min` (`term.rs` 392). -/
def minOf (bs : List (Option String × Nat)) : Nat := bs.foldr (fun e m => Nat.max e.2 m) 0

/-- Whether one atom is dominated (`term.rs` 393-398). -/
def dominated (bs : List (Option String × Nat)) : Option String × Nat → Bool
  | (none, off) => decide (off ≤ minOf bs)
  | (some v, off) => bs.any (fun e => decide (e.1 = some v ∧ off ≤ e.2))

/-- `leq_linear` (`term.rs` 386-399). -/
def leqLinear (a b : LNat) : Option Bool :=
  match atoms 0 a, atoms 0 b with
  | some as, some bs => some (as.all (dominated bs))
  | _, _ => none

/-- The level `v ≥ 1`, written with a new variable (`term.rs` 426). -/
def above (v : String) : LNat := .succ (.var (v ++ "✦"))

/-- `&&` of two results. -/
def both : Option Bool → Option Bool → Option Bool
  | none, _ => none
  | some false, _ => some false
  | some true, r => r

/-- `lnat_leq` (`term.rs` 418-433).  The number bounds the depth of the recursion; `none` is running out of
it, or the `unreachable!`.  (`leq_equation` proves that neither happens.) -/
def leqAux : Nat → LNat → LNat → Option Bool
  | f, a, b =>
    match (pivot a).or (pivot b) with
    | none => leqLinear a b
    | some v =>
      match f with
      | 0 => none
      | f + 1 =>
        both (leqAux f (simp (substL v (.const 0) a)) (simp (substL v (.const 0) b)))
          (leqAux f (simp (substL v (above v) a)) (simp (substL v (above v) b)))

/-- The number of `IMax` in a level. -/
def imaxes : LNat → Nat
  | .const _ => 0
  | .var _ => 0
  | .succ l => imaxes l
  | .max a b => imaxes a + imaxes b
  | .imax a b => imaxes a + imaxes b + 1

/-- `lnat_leq`, with enough fuel. -/
def lnatLeq (a b : LNat) : Option Bool := leqAux (imaxes a + imaxes b) a b

namespace Universe

/-- `level_leq` (`term.rs` 405-416) and `is_subtype_of` (`term.rs` 244-246), with `none` for a panic. -/
def leq? : Universe → Universe → Option Bool
  | .sprop, _ => some true
  | _, .sprop => some false
  | a, b => lnatLeq (simp (toLnat a)) (simp (toLnat b))

/-- `is_subtype_of` (`term.rs` 244-246). -/
def isSubtypeOf (a b : Universe) : Bool := (leq? a b).getD false

/-- `equiv` (`term.rs` 251-253). -/
def equiv (a b : Universe) : Bool := a.isSubtypeOf b && b.isSubtypeOf a

/-- `Universe::succ` (`term.rs` 196-202).  The sum of a `u32` wraps in a release build. -/
def mkSucc : Universe → Universe
  | .sprop => .type 1
  | .prop => .type 1
  | .type n => .type ((n + 1) % 2 ^ 32)
  | .var v => .succ (.var v)
  | .succ l => .succ (.succ l)
  | .max a b => .succ (.max a b)
  | .imax a b => .succ (.imax a b)

/-- `Universe::max` (`term.rs` 207-215). -/
def mkMax (a b : Universe) : Universe :=
  if a = .sprop then b
  else if b = .sprop then a
  else if a = .prop then b
  else if b = .prop then a
  else
    match a, b with
    | .type m, .type n => .type (Nat.max m n)
    | a, b => .max a b

/-- The last arm of `imax` (`term.rs` 230-237). -/
def imaxSymbolic (a b : Universe) : Universe := if a.equiv b then a else .imax a b

/-- `Universe::imax` (`term.rs` 222-239). -/
def mkIMax (a : Universe) : Universe → Universe
  | .sprop => .sprop
  | .prop => .prop
  | .type n => mkMax a (.type n)
  | .succ l => mkMax a (.succ l)
  | .var v => imaxSymbolic a (.var v)
  | .max x y => imaxSymbolic a (.max x y)
  | .imax x y => imaxSymbolic a (.imax x y)

/-- `substitute` (`term.rs` 257-265). -/
def substitute (σ : String → Option Universe) : Universe → Universe
  | .sprop => .sprop
  | .prop => .prop
  | .type n => .type n
  | .var v => (σ v).getD (.var v)
  | .succ l => mkSucc (substitute σ l)
  | .max a b => mkMax (substitute σ a) (substitute σ b)
  | .imax a b => mkIMax (substitute σ a) (substitute σ b)

/-! ## Specification -/

/-- The place of a universe in the hierarchy `SProp < Prop < Type 0 < Type 1 < …`, which are `-1`, `0`, `1`,
`2`, …, given the places of the variables, which are anything from `Prop` up.  The successor is the next
one (from `SProp` that is `Type 0`, like from `Prop`); the impredicative maximum is a proposition when its
second argument is. -/
def rank (ν : String → Nat) : Universe → Int
  | .sprop => -1
  | .prop => 0
  | .type n => n + 1
  | .var v => ν v
  | .succ l => Max.max 0 (rank ν l) + 1
  | .max a b => Max.max (rank ν a) (rank ν b)
  | .imax a b => if rank ν b ≤ 0 then rank ν b else Max.max (rank ν a) (rank ν b)

/-- The variables of a universe. -/
def names : Universe → List String
  | .sprop => []
  | .prop => []
  | .type _ => []
  | .var v => [v]
  | .succ l => names l
  | .max a b => names a ++ names b
  | .imax a b => names a ++ names b

/-- No variable's name ends in the character the procedure reserves for itself. -/
def Plain (u : Universe) : Prop := ∀ v ∈ u.names, ∀ w : String, v ≠ w ++ "✦"

/-- `SProp` does not occur. -/
def NoSProp : Universe → Prop
  | .sprop => False
  | .prop => True
  | .type _ => True
  | .var _ => True
  | .succ l => NoSProp l
  | .max a b => NoSProp a ∧ NoSProp b
  | .imax a b => NoSProp a ∧ NoSProp b

/-- `SProp` occurs only as the whole universe. -/
def Proper (u : Universe) : Prop := u = .sprop ∨ NoSProp u

/-- The universes the code builds, apart from `SProp` and `Prop`: neither is left inside, except `Prop` on
the left of an impredicative maximum. -/
inductive Composite : Universe → Prop
  | type (n : Nat) : Composite (.type n)
  | var (v : String) : Composite (.var v)
  | succ {l : Universe} : Composite l → Composite (.succ l)
  | max {a b : Universe} : Composite a → Composite b → Composite (.max a b)
  | imax {a b : Universe} : Composite a → Composite b → Composite (.imax a b)
  | imaxProp {b : Universe} : Composite b → Composite (.imax .prop b)

/-- The largest number written in a universe, plus the number of successors above it. -/
def top : Universe → Nat
  | .sprop => 0
  | .prop => 0
  | .type n => n
  | .var _ => 0
  | .succ l => top l + 1
  | .max a b => Nat.max (top a) (top b)
  | .imax a b => Nat.max (top a) (top b)

end Universe
end Verif.Level
