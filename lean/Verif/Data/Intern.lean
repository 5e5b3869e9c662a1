import Verif.Common.HMap

/-! # The string interner: base/src/intern.rs -/
namespace Verif.Data

/-- `Interner`, base/src/intern.rs:71-74.  A text is any value of a type `T` with decidable
equality and an empty text; a `Symbol` is its `u32`. -/
structure Interner (T : Type) where
  map : HMap T Nat
  vec : List T

variable {T : Type} [DecidableEq T]

/-- `Interner::new`, base/src/intern.rs:79-86: the empty text is in the vector, not in the map. -/
def Interner.new (empty : T) : Interner T := ⟨HMap.empty, [empty]⟩

/-- `Interner::intern`, base/src/intern.rs:91-99.  `as u32` keeps the low 32 bits. -/
def Interner.intern (i : Interner T) (s : T) : Nat × Interner T :=
  match i.map.get? s with
  | some sym => (sym, i)
  | none =>
    let sym := i.vec.length % 4294967296
    (sym, ⟨i.map.insert s sym, i.vec ++ [s]⟩)

/-- `Interner::resolve`, base/src/intern.rs:106-108; `none` is the index panic. -/
def Interner.resolve (i : Interner T) (sym : Nat) : Option T := i.vec[sym]?

/-- `Interner::lookup`, base/src/intern.rs:113-115. -/
def Interner.lookup (i : Interner T) (s : T) : Option Nat := i.map.get? s

/-- `Interner::len`, base/src/intern.rs:118-120. -/
def Interner.len (i : Interner T) : Nat := i.vec.length

/-- Interning texts one after another: the symbols handed out and the final interner. -/
def Interner.run (i : Interner T) : List T → List Nat × Interner T
  | [] => ([], i)
  | s :: rest =>
    let r := i.intern s
    let q := r.2.run rest
    (r.1 :: q.1, q.2)

end Verif.Data
