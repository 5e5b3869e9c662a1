/-!
# Model of the eight-byte value of the virtual machine

`Narrow` (`crates/logicaffeine_compile/src/vm/nanbox.rs`) and the two representations of `Value` over
it (`vm/value.rs`).  A `u64` is a natural number below 2⁶⁴; an `f64` is its bit pattern.  The memory is
a map from addresses to the boxed values that live there.  The allocator is a parameter that names an
address, or fails.  Reading or freeing an address where nothing lives is a fault.
-/
namespace Verif.Vm

/-- `RuntimeValue` (`interpreter.rs`): the four variants with an inline form; all the others, whose
payloads are shared pointers, are one variant over any type. -/
inductive RV (α : Type) where
  | int (n : Int)
  | float (bits : Nat)
  | bool (b : Bool)
  | nothing
  | other (x : α)
deriving DecidableEq

/-- `as_int`, `as_bool`, `as_float` of the sixteen-byte value (`value.rs` 137–159). -/
def RV.int? {α : Type} : RV α → Option Int
  | .int n => some n
  | _ => none
def RV.bool? {α : Type} : RV α → Option Bool
  | .bool b => some b
  | _ => none
def RV.float? {α : Type} : RV α → Option Nat
  | .float f => some f
  | _ => none

/-- `QNAN` (`nanbox.rs` 83). -/
def qnan : Nat := 0xFFF8000000000000
/-- `CANONICAL_NAN` (`nanbox.rs` 91). -/
def canonicalNan : Nat := 0xFFFFFFFFFFFFFFFF
/-- `TAG_SHIFT`, `TAG_MASK`, `PAYLOAD_MASK` (`nanbox.rs` 96–98). -/
def tagShift : Nat := 48
def tagMask : Nat := 3
def payloadMask : Nat := 2 ^ 48 - 1
/-- The tags (`nanbox.rs` 100–103). -/
def tagInt : Nat := 0
def tagBool : Nat := 1
def tagNothing : Nat := 2
def tagHeap : Nat := 3

/-- `is_tagged` (`nanbox.rs` 110–115). -/
def isTagged (bits : Nat) : Bool := qnan ≤ bits && bits != canonicalNan

/-- `tag_of` (`nanbox.rs` 118–120). -/
def tagOf (bits : Nat) : Nat := (bits >>> tagShift) &&& tagMask

/-- `n as u64`. -/
def asU64 (n : Int) : Nat := (n % 2 ^ 64).toNat

/-- `x as i64`. -/
def asI64 (x : Nat) : Int := if x < 2 ^ 63 then x else (x : Int) - 2 ^ 64

/-- `f64::is_nan` on bits: exponent all ones, fraction not zero. -/
def isNan (bits : Nat) : Bool := (bits >>> 52) &&& 0x7FF == 0x7FF && bits &&& (2 ^ 52 - 1) != 0

/-- Memory: what is boxed at each address. -/
abbrev Mem (α : Type) := Nat → Option (RV α)

/-- What stops a run: the allocator fails (the process aborts), or memory is used that is not live. -/
inductive Stop where
  | oom
  | fault
deriving DecidableEq

variable {α : Type}

def Mem.set (m : Mem α) (p : Nat) (v : Option (RV α)) : Mem α := fun q => if q = p then v else m q

/-- `Narrow::heap` (`nanbox.rs` 163–171): box the value, tag the address. -/
def heap (pick : Mem α → Option Nat) (m : Mem α) (v : RV α) : Except Stop (Mem α × Nat) :=
  match pick m with
  | none => .error .oom
  | some p => .ok (m.set p (some v), qnan ||| (tagHeap <<< tagShift) ||| (p &&& payloadMask))

/-- `Narrow::int` (`nanbox.rs` 128–135). -/
def mkInt (pick : Mem α → Option Nat) (m : Mem α) (n : Int) : Except Stop (Mem α × Nat) :=
  if -(2 ^ 47) ≤ n ∧ n ≤ 2 ^ 47 - 1 then
    .ok (m, qnan ||| (tagInt <<< tagShift) ||| (asU64 n &&& payloadMask))
  else heap pick m (.int n)

/-- `Narrow::float` (`nanbox.rs` 140–147). -/
def mkFloat (bits : Nat) : Nat := if isNan bits then canonicalNan else bits

/-- `Narrow::bool` (`nanbox.rs` 150–152). -/
def mkBool (b : Bool) : Nat := qnan ||| (tagBool <<< tagShift) ||| b.toNat

/-- `Narrow::nothing` (`nanbox.rs` 155–157). -/
def mkNothing : Nat := qnan ||| (tagNothing <<< tagShift)

/-- `Narrow::from_runtime` (`nanbox.rs` 272–280). -/
def fromRuntime (pick : Mem α → Option Nat) (m : Mem α) : RV α → Except Stop (Mem α × Nat)
  | .int n => mkInt pick m n
  | .float f => .ok (m, mkFloat f)
  | .bool b => .ok (m, mkBool b)
  | .nothing => .ok (m, mkNothing)
  | .other x => heap pick m (.other x)

/-- The pointer of a boxed word: `self.0 & PAYLOAD_MASK`. -/
def ptrOf (w : Nat) : Nat := w &&& payloadMask

/-- `is_heap` (`nanbox.rs` 217–219). -/
def isHeap (w : Nat) : Bool := isTagged w && tagOf w == tagHeap

/-- `heap_ref` (`nanbox.rs` 233–238). -/
def heapRef (m : Mem α) (w : Nat) : Except Stop (RV α) :=
  match m (ptrOf w) with
  | some v => .ok v
  | none => .error .fault

/-- Sign extension: `((bits & PAYLOAD_MASK) as i64) << 16 >> 16` (`nanbox.rs` 184–185). -/
def signExtend (w : Nat) : Int := asI64 ((((w &&& payloadMask) <<< 16) % 2 ^ 64)) / 2 ^ 16

/-- `as_int` (`nanbox.rs` 177–193). -/
def asInt (m : Mem α) (w : Nat) : Except Stop (Option Int) :=
  if !isTagged w then .ok none
  else if tagOf w = tagInt then .ok (some (signExtend w))
  else if tagOf w = tagHeap then
    match heapRef m w with
    | .ok (.int n) => .ok (some n)
    | .ok _ => .ok none
    | .error e => .error e
  else .ok none

/-- `as_float` (`nanbox.rs` 197–203). -/
def asFloat (w : Nat) : Option Nat := if isTagged w then none else some w

/-- `as_bool` (`nanbox.rs` 206–212). -/
def asBool (w : Nat) : Option Bool :=
  if isTagged w && tagOf w == tagBool then some (w &&& payloadMask != 0) else none

/-- `as_inline_int` (`nanbox.rs` 409–416). -/
def asInlineInt (w : Nat) : Option Int :=
  if isTagged w && tagOf w == tagInt then some (signExtend w) else none

/-- `to_runtime` (`nanbox.rs` 319–333). -/
def toRuntime (m : Mem α) (w : Nat) : Except Stop (RV α) :=
  if !isTagged w then .ok (.float w)
  else if tagOf w = tagInt then .ok (.int (signExtend w))
  else if tagOf w = tagBool then .ok (.bool (w &&& payloadMask != 0))
  else if tagOf w = tagNothing then .ok .nothing
  else heapRef m w

/-- Give a box back to the allocator. -/
def free (m : Mem α) (p : Nat) : Except Stop (Mem α) :=
  match m p with
  | some _ => .ok (m.set p none)
  | none => .error .fault

/-- `Drop for Narrow` (`nanbox.rs` 419–430). -/
def dropWord (m : Mem α) (w : Nat) : Except Stop (Mem α) :=
  if isHeap w then free m (ptrOf w) else .ok m

/-- `into_runtime` (`nanbox.rs` 284–316): a boxed value is moved out and its box is freed. -/
def intoRuntime (m : Mem α) (w : Nat) : Except Stop (Mem α × RV α) :=
  if !isTagged w then .ok (m, .float w)
  else if tagOf w = tagInt then .ok (m, .int (signExtend w))
  else if tagOf w = tagBool then .ok (m, .bool (w &&& payloadMask != 0))
  else if tagOf w = tagNothing then .ok (m, .nothing)
  else do
    let v ← heapRef m w
    let m' ← free m (ptrOf w)
    return (m', v)

/-- `Clone for Narrow` (`nanbox.rs` 432–444). -/
def cloneWord (pick : Mem α → Option Nat) (m : Mem α) (w : Nat) : Except Stop (Mem α × Nat) :=
  if isHeap w then do
    let v ← heapRef m w
    heap pick m v
  else .ok (m, w)

/-- `make_heap_mut` (`nanbox.rs` 256–267): a word that is not boxed becomes boxed; assigning the new
word drops the old one, which owns nothing. -/
def makeHeapMut (pick : Mem α → Option Nat) (m : Mem α) (w : Nat) : Except Stop (Mem α × Nat) :=
  if !isHeap w then do
    let v ← toRuntime m w
    let (m1, w') ← heap pick m v
    let m2 ← dropWord m1 w
    return (m2, w')
  else .ok (m, w)

/-- A change made through the reference `make_heap_mut` gives. -/
def writeThrough (pick : Mem α → Option Nat) (m : Mem α) (w : Nat) (f : RV α → RV α) :
    Except Stop (Mem α × Nat) := do
  let (m1, w') ← makeHeapMut pick m w
  let v ← heapRef m1 w'
  return (m1.set (ptrOf w') (some (f v)), w')

/-! ## The operators of `Value` -/

/-- The operators with a fast path (`value.rs` 181–246, 333–415). -/
inductive Op where
  | add | sub | mul | lt | gt | lte | gte | eq | neq
deriving DecidableEq

/-- The machine's whole numbers. -/
def fits (n : Int) : Bool := -(2 ^ 63) ≤ n && n ≤ 2 ^ 63 - 1

/-- The fast path on two whole numbers: `checked_add` and the like; `none` on overflow. -/
def Op.fast : Op → Int → Int → Option (RV α)
  | .add, a, b => if fits (a + b) then some (.int (a + b)) else none
  | .sub, a, b => if fits (a - b) then some (.int (a - b)) else none
  | .mul, a, b => if fits (a * b) then some (.int (a * b)) else none
  | .lt, a, b => some (.bool (a < b))
  | .gt, a, b => some (.bool (b < a))
  | .lte, a, b => some (.bool (a ≤ b))
  | .gte, a, b => some (.bool (b ≤ a))
  | .eq, a, b => some (.bool (a == b))
  | .neq, a, b => some (.bool (a != b))

/-- The shared operators of `crate::semantics`: a value or an error message. -/
abbrev Ops (α : Type) := Op → RV α → RV α → Except Nat (RV α)

/-- The operators on the sixteen-byte value (`value.rs` 181–246). -/
def fatOp (K : Ops α) (op : Op) (a b : RV α) : Except Nat (RV α) :=
  match a, b with
  | .int x, .int y =>
    match op.fast x y with
    | some v => .ok v
    | none => K op a b
  | _, _ => K op a b

/-- The operators on the eight-byte value (`value.rs` 333–415, `nanbox.rs` 349–401). -/
def narrowOp (pick : Mem α → Option Nat) (K : Ops α) (m : Mem α) (op : Op) (a b : Nat) :
    Except Stop (Mem α × Except Nat Nat) :=
  match asInlineInt a, asInlineInt b with
  | some x, some y =>
    match op.fast x y with
    | some v => do
      let (m', w) ← fromRuntime pick m v
      return (m', .ok w)
    | none =>
      match K op (.int x) (.int y) with
      | .ok v => do
        let (m', w) ← fromRuntime pick m v
        return (m', .ok w)
      | .error e => .ok (m, .error e)
  | _, _ => do
    let u ← toRuntime m a
    let v ← toRuntime m b
    match K op u v with
    | .ok r =>
      let (m', w) ← fromRuntime pick m r
      return (m', .ok w)
    | .error e => return (m, .error e)

/-- `is_truthy` (`value.rs` 425–435) over the kernel's `is_truthy` of the other values. -/
def narrowTruthy (truthy : RV α → Bool) (m : Mem α) (w : Nat) : Except Stop Bool :=
  match asBool w with
  | some b => .ok b
  | none =>
    match asInt m w with
    | .error e => .error e
    | .ok (some n) => .ok (n != 0)
    | .ok none =>
      match toRuntime m w with
      | .ok v => .ok (truthy v)
      | .error e => .error e

/-- `as_heap` / `as_runtime_ref` (`nanbox.rs` 241–247, `value.rs` 302–304). -/
def asHeap (m : Mem α) (w : Nat) : Except Stop (Option (RV α)) :=
  if isHeap w then
    match heapRef m w with
    | .ok v => .ok (some v)
    | .error e => .error e
  else .ok none

/-- The type names as the kernel gives them (`interpreter.rs`, `type_name`): 0 Int, 1 Float, 2 Bool,
3 Nothing, others by a parameter. -/
def typeName (name : α → Nat) : RV α → Nat
  | .int _ => 0
  | .float _ => 1
  | .bool _ => 2
  | .nothing => 3
  | .other x => name x

/-- `type_name` (`value.rs` 444–461). -/
def narrowTypeName (name : α → Nat) (m : Mem α) (w : Nat) : Except Stop Nat :=
  if (asBool w).isSome then .ok 2
  else
    match asInt m w with
    | .error e => .error e
    | .ok (some _) => .ok 0
    | .ok none =>
      if (asFloat w).isSome then .ok 1
      else
        match asHeap m w with
        | .error e => .error e
        | .ok (some v) => .ok (typeName name v)
        | .ok none => .ok 3

/-! ## A machine with registers -/

/-- What a machine does with its registers. -/
inductive Ev (α : Type) where
  | put (i : Nat) (v : RV α)
  | copy (i j : Nat)
  | take (i : Nat)
  | drop (i : Nat)
  | write (i : Nat) (f : RV α → RV α)
  | op (o : Op) (i j k : Nat)

/-- The machine with eight-byte registers: `none` is a register not filled, or moved out. -/
structure Narrow (α : Type) where
  mem : Mem α
  regs : Nat → Option Nat

def Narrow.start : Narrow α := ⟨fun _ => none, fun _ => none⟩

/-- Assignment to a register: the new word is made first, then the old one is dropped. -/
def Narrow.assign (s : Narrow α) (i : Nat) (m : Mem α) (w : Nat) : Except Stop (Narrow α) :=
  match s.regs i with
  | none => .ok ⟨m, fun r => if r = i then some w else s.regs r⟩
  | some old => do
    let m' ← dropWord m old
    return ⟨m', fun r => if r = i then some w else s.regs r⟩

/-- One event: the new state and what is seen (the value taken, or the error of an operator).  Events
on registers not filled do nothing. -/
def Narrow.step (pick : Mem α → Option Nat) (K : Ops α) (s : Narrow α) :
    Ev α → Except Stop (Narrow α × Option (Except Nat (RV α)))
  | .put i v => do
    let (m, w) ← fromRuntime pick s.mem v
    let s' ← s.assign i m w
    return (s', none)
  | .copy i j =>
    match s.regs i with
    | none => .ok (s, none)
    | some w => do
      let (m, w') ← cloneWord pick s.mem w
      let s' ← s.assign j m w'
      return (s', none)
  | .take i =>
    match s.regs i with
    | none => .ok (s, none)
    | some w => do
      let (m, v) ← intoRuntime s.mem w
      return (⟨m, fun r => if r = i then none else s.regs r⟩, some (.ok v))
  | .drop i =>
    match s.regs i with
    | none => .ok (s, none)
    | some w => do
      let m ← dropWord s.mem w
      return (⟨m, fun r => if r = i then none else s.regs r⟩, none)
  | .write i f =>
    match s.regs i with
    | none => .ok (s, none)
    | some w => do
      let (m, w') ← writeThrough pick s.mem w f
      return (⟨m, fun r => if r = i then some w' else s.regs r⟩, none)
  | .op o i j k =>
    match s.regs i, s.regs j with
    | some a, some b => do
      let (m, r) ← narrowOp pick K s.mem o a b
      match r with
      | .error e => return (⟨m, s.regs⟩, some (.error e))
      | .ok w =>
        let s' ← s.assign k m w
        return (s', none)
    | _, _ => .ok (s, none)

def Narrow.run (pick : Mem α → Option Nat) (K : Ops α) (s : Narrow α) :
    List (Ev α) → Except Stop (Narrow α × List (Option (Except Nat (RV α))))
  | [] => .ok (s, [])
  | e :: es => do
    let (s1, o) ← s.step pick K e
    let (s2, os) ← s1.run pick K es
    return (s2, o :: os)

/-- The machine with sixteen-byte registers (`value.rs` 77–247): a register is the value. -/
abbrev Fat (α : Type) := Nat → Option (RV α)

def Fat.step (K : Ops α) (s : Fat α) : Ev α → Fat α × Option (Except Nat (RV α))
  | .put i v => (fun r => if r = i then some v else s r, none)
  | .copy i j =>
    match s i with
    | none => (s, none)
    | some v => (fun r => if r = j then some v else s r, none)
  | .take i =>
    match s i with
    | none => (s, none)
    | some v => (fun r => if r = i then none else s r, some (.ok v))
  | .drop i => (fun r => if r = i then none else s r, none)
  | .write i f =>
    match s i with
    | none => (s, none)
    | some v => (fun r => if r = i then some (f v) else s r, none)
  | .op o i j k =>
    match s i, s j with
    | some a, some b =>
      match fatOp K o a b with
      | .ok v => (fun r => if r = k then some v else s r, none)
      | .error e => (s, some (.error e))
    | _, _ => (s, none)

def Fat.run (K : Ops α) (s : Fat α) : List (Ev α) → Fat α × List (Option (Except Nat (RV α)))
  | [] => (s, [])
  | e :: es =>
    let (s1, o) := s.step K e
    let (s2, os) := Fat.run K s1 es
    (s2, o :: os)

end Verif.Vm
