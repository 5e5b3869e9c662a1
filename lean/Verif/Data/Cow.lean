import Mathlib.Algebra.BigOperators.Group.Finset.Basic
import Mathlib.Algebra.Order.BigOperators.Group.Finset

/-! # Copy-on-write sequences: `LogosSeq`, data/src/types.rs:43-236

A `LogosSeq<T>` is a handle (`Rc`) to a buffer; `T` may itself be a `LogosSeq`.  Buffers are kept by
the nesting depth of their type: a buffer of level 0 holds plain numbers, one of level `d + 1` holds
handles to buffers of level `d`.  A program keeps handles in variables.  The compiled program calls
`cow()` on a variable before each in-place change (compile/src/codegen/stmt.rs:610-660, 1503): the
operations here do so too.  Buffers are never reused, so a freed one is simply no longer referred
to.  `none` is a panic or an operation that does not type-check. -/
namespace Verif.Data

/-- Replace one level. -/
def upd {A : Type} (f : Nat → A) (d : Nat) (v : A) : Nat → A := fun e => if e = d then v else f e

/-- Buffers and variables by level; `top` is the deepest nesting in the program, less one. -/
structure CowState where
  top : Nat
  vars : Nat → List (Option Nat)
  heap : Nat → List (List Nat)

/-- The contents of a buffer. -/
def CowState.buf (s : CowState) (d a : Nat) : List Nat := (s.heap d).getD a []

/-- The buffer a variable refers to. -/
def CowState.var (s : CowState) (d x : Nat) : Option Nat := (s.vars d)[x]?.join

/-- How many handles there are to buffer `a` of level `d`, where `g` levels lie above: those in
variables, and those held in buffers one level up that are themselves still referred to. -/
def countG (s : CowState) : Nat → Nat → Nat → Nat
  | 0, d, a => (s.vars d).count (some a)
  | g + 1, d, a => (s.vars d).count (some a) +
      ∑ b ∈ Finset.range (s.heap (d + 1)).length,
        if 0 < countG s g (d + 1) b then (s.buf (d + 1) b).count a else 0

/-- `Rc::strong_count`. -/
def CowState.count (s : CowState) (d a : Nat) : Nat := countG s (s.top - d) d a

/-- `LogosSeq::cow` on a variable, data/src/types.rs:215-222. -/
def CowState.cow (s : CowState) (d x : Nat) : CowState :=
  match s.var d x with
  | none => s
  | some a =>
    if s.count d a > 1 then
      { s with
        heap := upd s.heap d (s.heap d ++ [s.buf d a])
        vars := upd s.vars d ((s.vars d).set x (some (s.heap d).length)) }
    else s

/-- `outer[k].cow()` on the handle at position `k` of buffer `a` of level `d + 1`,
data/src/types.rs:234. -/
def CowState.cowCell (s : CowState) (d a k : Nat) : CowState :=
  match (s.buf (d + 1) a)[k]? with
  | none => s
  | some r =>
    if s.count d r > 1 then
      { s with
        heap := upd (upd s.heap d (s.heap d ++ [s.buf d r])) (d + 1)
          ((s.heap (d + 1)).set a ((s.buf (d + 1) a).set k (s.heap d).length)) }
    else s

/-- An in-place change of a vector: `push`, data/src/types.rs:64-66; an element write; `pop` 68-70;
`remove` 80-82; `reverse` 175-177. -/
inductive Edit (A : Type) where
  | push (c : A)
  | set (i : Nat) (c : A)
  | pop
  | remove (i : Nat)
  | reverse
deriving DecidableEq, Repr

/-- The changed vector; `none` is an index panic. -/
def Edit.apply {A : Type} : Edit A → List A → Option (List A)
  | .push c, l => some (l ++ [c])
  | .set i c, l => if i < l.length then some (l.set i c) else none
  | .pop, l => some l.dropLast
  | .remove i, l => if i < l.length then some (l.eraseIdx i) else none
  | .reverse, l => some l.reverse

/-- Evaluating the operand. -/
def Edit.eval {A B : Type} (f : A → Option B) : Edit A → Option (Edit B)
  | .push c => (f c).map .push
  | .set i c => (f c).map (.set i)
  | .pop => some .pop
  | .remove i => some (.remove i)
  | .reverse => some .reverse

/-- An operand: a number, or a copy (`clone`, data/src/types.rs:194-205) of a variable. -/
inductive Arg where
  | num (n : Nat)
  | var (y : Nat)
deriving DecidableEq, Repr

/-- The element stored for an operand in a buffer of level `d`: a number, or a further handle to
the variable's buffer. -/
def CowState.cell (s : CowState) : Nat → Arg → Option Nat
  | 0, .num n => some n
  | d + 1, .var y => s.var d y
  | _, _ => none

/-- Changing a buffer in place. -/
def CowState.mutate (s : CowState) (d a : Nat) (e : Edit Nat) : Option CowState :=
  match e.apply (s.buf d a) with
  | none => none
  | some l => some { s with heap := upd s.heap d ((s.heap d).set a l) }

/-- What a program does with its sequences.  `new` and `copy` and `deep` and `fetch` bring a new
variable. -/
inductive CowOp where
  | new (d : Nat)
  | copy (d y : Nat)
  | deep (d y : Nat)
  | fetch (d x i : Nat)
  | assign (d x y : Nat)
  | drop (d x : Nat)
  | edit (d x : Nat) (e : Edit Arg)
  | nested (d x k i : Nat) (v : Arg)
deriving DecidableEq, Repr

/-- A new variable. -/
def CowState.bring (s : CowState) (d a : Nat) : CowState :=
  { s with vars := upd s.vars d (s.vars d ++ [some a]) }

/-- A new buffer, with a new variable for it. -/
def CowState.alloc (s : CowState) (d : Nat) (cells : List Nat) : CowState :=
  { s with
    heap := upd s.heap d (s.heap d ++ [cells])
    vars := upd s.vars d (s.vars d ++ [some (s.heap d).length]) }

/-- A change of a variable's sequence, after `cow()`. -/
def CowState.edit (s : CowState) (d x : Nat) (e : Edit Nat) : Option CowState :=
  match (s.cow d x).var d x with
  | none => none
  | some a => (s.cow d x).mutate d a e

/-- `set_nested`, data/src/types.rs:232-236, on a variable of level `d + 1`, after `cow()`: the row is
made unique, then written. -/
def CowState.setRow (s : CowState) (d a k i c : Nat) : Option CowState :=
  match ((s.cowCell d a k).buf (d + 1) a)[k]? with
  | none => none
  | some r => (s.cowCell d a k).mutate d r (.set i c)

/-- `set_nested` after `cow()` of the outer variable. -/
def CowState.setNested (s : CowState) (d x k i c : Nat) : Option CowState :=
  match (s.cow (d + 1) x).var (d + 1) x with
  | none => none
  | some a => (s.cow (d + 1) x).setRow d a k i c

/-- One operation: `new`, data/src/types.rs:52-54; `clone` 194-205; `deep_clone` 131-133; reading an
element, which clones it; assignment and drop; changes. -/
def CowState.step (s : CowState) : CowOp → Option CowState
  | .new d => if d ≤ s.top then some (s.alloc d []) else none
  | .copy d y => (s.var d y).map (s.bring d)
  | .deep d y => (s.var d y).map fun a => s.alloc d (s.buf d a)
  | .fetch d x i =>
    match s.var (d + 1) x with
    | none => none
    | some a => (s.buf (d + 1) a)[i]?.map (s.bring d)
  | .assign d x y =>
    match s.var d y with
    | none => none
    | some a =>
      if x < (s.vars d).length then some { s with vars := upd s.vars d ((s.vars d).set x (some a)) } else none
  | .drop d x => some { s with vars := upd s.vars d ((s.vars d).set x none) }
  | .edit d x e =>
    match e.eval (s.cell d) with
    | none => none
    | some e' => s.edit d x e'
  | .nested d x k i v =>
    match s.cell d v with
    | none => none
    | some c => s.setNested d x k i c

/-- The empty program state. -/
def CowState.init (top : Nat) : CowState := ⟨top, fun _ => [], fun _ => []⟩

/-- A sequence of operations. -/
def CowState.run (s : CowState) : List CowOp → Option CowState
  | [] => some s
  | op :: rest =>
    match s.step op with
    | none => none
    | some s' => s'.run rest

/-! ## Specification: values without any sharing -/

/-- A value: a number at level 0, a list of values of the level below otherwise. -/
def Val : Nat → Type
  | 0 => Nat
  | d + 1 => List (Val d)

/-- Variables holding values themselves. -/
structure ValState where
  top : Nat
  vals : (d : Nat) → List (Option (List (Val d)))

/-- Replace one level. -/
def updV (f : (d : Nat) → List (Option (List (Val d)))) (d : Nat) (v : List (Option (List (Val d)))) :
    (e : Nat) → List (Option (List (Val e))) := fun e => if h : e = d then h ▸ v else f e

/-- A variable's value. -/
def ValState.val (s : ValState) (d x : Nat) : Option (List (Val d)) := (s.vals d)[x]?.join

/-- An operand's value. -/
def ValState.arg (s : ValState) : (d : Nat) → Arg → Option (Val d)
  | 0, .num n => some n
  | d + 1, .var y => s.val d y
  | _, _ => none

/-- Give a variable a value; no other variable changes. -/
def ValState.put (s : ValState) (d x : Nat) (v : Option (List (Val d))) : ValState :=
  { s with vals := updV s.vals d ((s.vals d).set x v) }

/-- A new variable. -/
def ValState.bring (s : ValState) (d : Nat) (v : List (Val d)) : ValState :=
  { s with vals := updV s.vals d (s.vals d ++ [some v]) }

/-- Writing position `i` of row `k`. -/
def nestedSet {A : Type} (g : List (List A)) (k i : Nat) (c : A) : Option (List (List A)) :=
  match g[k]? with
  | none => none
  | some row => if i < row.length then some (g.set k (row.set i c)) else none

/-- The meaning of one operation on values: copying copies the value, and a change of a variable
changes that variable's value only. -/
def ValState.step (s : ValState) : CowOp → Option ValState
  | .new d => if d ≤ s.top then some (s.bring d []) else none
  | .copy d y => (s.val d y).map (s.bring d)
  | .deep d y => (s.val d y).map (s.bring d)
  | .fetch d x i =>
    match s.val (d + 1) x with
    | none => none
    | some l => l[i]?.map (s.bring d)
  | .assign d x y =>
    match s.val d y with
    | none => none
    | some l => if x < (s.vals d).length then some (s.put d x (some l)) else none
  | .drop d x => some (s.put d x none)
  | .edit d x e =>
    match e.eval (s.arg d) with
    | none => none
    | some e' =>
      match s.val d x with
      | none => none
      | some l => (e'.apply l).map fun l' => s.put d x (some l')
  | .nested d x k i v =>
    match s.arg d v with
    | none => none
    | some c =>
      match s.val (d + 1) x with
      | none => none
      | some g => (nestedSet (A := Val d) g k i c).map fun g' => s.put (d + 1) x (some g')

/-- The empty program state. -/
def ValState.init (top : Nat) : ValState := ⟨top, fun _ => []⟩

/-- A sequence of operations. -/
def ValState.run (s : ValState) : List CowOp → Option ValState
  | [] => some s
  | op :: rest =>
    match s.step op with
    | none => none
    | some s' => s'.run rest

/-- The value a cell of level `d` stands for. -/
def readCell (heap : Nat → List (List Nat)) : (d : Nat) → Nat → Val d
  | 0, c => c
  | d + 1, a => ((heap d).getD a []).map (readCell heap d)

/-- The value of a buffer. -/
def readBuf (heap : Nat → List (List Nat)) (d a : Nat) : List (Val d) := ((heap d).getD a []).map (readCell heap d)

/-- What the program sees of its variables. -/
def CowState.view (s : CowState) : ValState :=
  ⟨s.top, fun d => (s.vars d).map (Option.map (readBuf s.heap d))⟩

end Verif.Data
