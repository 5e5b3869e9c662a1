import Mathlib.Data.List.Basic
import Mathlib.Data.BitVec

/-! # The open-addressing integer maps and sets: `LogosI64Map`, `LogosI64Set`, `LogosI32Map`,
`LogosI32Set`, data/src/types.rs:476-1075

The four have one probe table each, with the same code up to the width of the key and the presence
of a value.  `OMap w V` is that code over `w`-bit keys and values of type `V`: `V` is a word for the
maps and `Unit` for the sets.  A probe loop that would never end is `none`.  Table sizes are natural
numbers: `usize` overflow at more than 2^61 slots is not modelled. -/
namespace Verif.Data

/-- A probe table of `[key, value]` slots; key `0` marks an empty slot.  data/src/types.rs:476-486,
649-654, 798-804, 946-951. -/
structure OMap (w : Nat) (V : Type) where
  entries : List (BitVec w × V)
  mask : Nat
  len : Nat
  hasZero : Bool
  zeroVal : V

variable {w : Nat} {V : Type}

/-- `new`, data/src/types.rs:491-499, 659-661, 809-811, 956-958 (`d` is the zero value). -/
def OMap.new (d : V) : OMap w V := ⟨[], 0, 0, false, d⟩

/-- `usize::next_power_of_two`. -/
def nextPow2 (n : Nat) : Nat := if n ≤ 1 then 1 else 2 ^ (Nat.log2 (n - 1) + 1)

/-- `vec![[EMPTY, 0]; slots]`. -/
def emptyTable (w : Nat) (d : V) (slots : Nat) : List (BitVec w × V) := List.replicate slots (0#w, d)

/-- `with_capacity`, data/src/types.rs:501-514, 663-673, 813-822, 960-968. -/
def OMap.withCapacity (d : V) (cap : Nat) : OMap w V :=
  if cap > 0 then
    let slots := max (nextPow2 (cap * 4 / 3 + 1)) 8
    ⟨emptyTable w d slots, slots - 1, 0, false, d⟩
  else OMap.new d

/-- `table_len`, data/src/types.rs:518-521, 675-678, 824-827, 970-973. -/
def OMap.tableLen (m : OMap w V) : Nat := m.len - (if m.hasZero then 1 else 0)

/-- `slot`, data/src/types.rs:530-537, 691-696, 836-842, 982-988: the key zero-extended to 64 bits,
Fibonacci-hashed, the high half folded down, masked. -/
def slotOf (mask : Nat) (key : BitVec w) : Nat :=
  let h := key.toNat * 11400714819323198485 % 18446744073709551616
  (h ^^^ (h >>> 32)) &&& mask

/-- `entries[i]` (out of range would be undefined behaviour; it never happens). -/
def slotAt (t : List (BitVec w × V)) (d : V) (i : Nat) : BitVec w × V := t.getD i (0#w, d)

/-- The probe loop of `insert`, `get` and `contains_key`, data/src/types.rs:550-563, 598-607,
713-724, 757-766, 855-868, 903-911, 1000-1011, 1045-1054: the first position, from `i` on and
wrapping round, that holds the key or is empty.  `fuel` rounds at most. -/
def probe (t : List (BitVec w × V)) (d : V) (mask : Nat) (key : BitVec w) : Nat → Nat → Option Nat
  | 0, _ => none
  | fuel + 1, i =>
    let k := (slotAt t d i).1
    if k = 0#w ∨ k = key then some i else probe t d mask key fuel ((i + 1) &&& mask)

/-- The loop of `grow` for one old entry, data/src/types.rs:574-580, 733-739, 879-885, 1022-1028:
the first empty position. -/
def probeEmpty (t : List (BitVec w × V)) (d : V) (mask : Nat) : Nat → Nat → Option Nat
  | 0, _ => none
  | fuel + 1, i =>
    if (slotAt t d i).1 ≠ 0#w then probeEmpty t d mask fuel ((i + 1) &&& mask) else some i

/-- The loop of `grow` over the old entries, data/src/types.rs:572-581, 731-740, 876-886, 1019-1029. -/
def rehash (d : V) (mask : Nat) : List (BitVec w × V) → List (BitVec w × V) → Option (List (BitVec w × V))
  | [], t => some t
  | (k, v) :: rest, t =>
    if k ≠ 0#w then
      match probeEmpty t d mask t.length (slotOf mask k) with
      | none => none
      | some i => rehash d mask rest (t.set i (k, v))
    else rehash d mask rest t

/-- `grow`, data/src/types.rs:567-582, 727-741, 871-886, 1014-1029. -/
def OMap.grow (d : V) (m : OMap w V) : Option (OMap w V) :=
  let slots := if m.mask = 0 then 8 else (m.mask + 1) * 2
  match rehash d (slots - 1) m.entries (emptyTable w d slots) with
  | none => none
  | some t => some { m with entries := t, mask := slots - 1 }

/-- The insertion after the growth check, data/src/types.rs:550-564, 712-724, 855-868, 1000-1011. -/
def OMap.put (d : V) (m : OMap w V) (key : BitVec w) (value : V) : Option (OMap w V) :=
  match probe m.entries d m.mask key m.entries.length (slotOf m.mask key) with
  | none => none
  | some i =>
    let k := (slotAt m.entries d i).1
    if k = 0#w then some { m with entries := m.entries.set i (key, value), len := m.len + 1 }
    else some { m with entries := m.entries.set i (k, value) }

/-- The growth check, data/src/types.rs:548-550, 710-712, 853-855, 998-1000. -/
def OMap.needsGrow (m : OMap w V) : Bool :=
  decide (m.mask = 0 ∨ (m.tableLen + 1) * 4 > (m.mask + 1) * 3)

/-- `insert`, data/src/types.rs:539-565, 702-725, 844-869, 990-1012. -/
def OMap.insert (d : V) (m : OMap w V) (key : BitVec w) (value : V) : Option (OMap w V) :=
  if key = 0#w then
    some { m with len := (if m.hasZero then m.len else m.len + 1), hasZero := true, zeroVal := value }
  else if m.needsGrow then
    match m.grow d with
    | none => none
    | some m' => m'.put d key value
  else m.put d key value

/-- `get`, data/src/types.rs:584-608, 891-911 (and `contains_key`, 746-766, 1034-1054): the outer
`none` is a probe that never ends. -/
def OMap.get (d : V) (m : OMap w V) (key : BitVec w) : Option (Option V) :=
  if key = 0#w then some (if m.hasZero then some m.zeroVal else none)
  else if m.mask = 0 then some none
  else
    match probe m.entries d m.mask key m.entries.length (slotOf m.mask key) with
    | none => none
    | some i =>
      let e := slotAt m.entries d i
      some (if e.1 = key then some e.2 else none)

/-! ## The four types -/

/-- `LogosI64Map`. -/
abbrev I64Map := OMap 64 (BitVec 64)
/-- `LogosI64Set`: no values are stored; `insert` drops its second argument. -/
abbrev I64Set := OMap 64 Unit
/-- `LogosI32Map`. -/
abbrev I32Map := OMap 32 (BitVec 32)
/-- `LogosI32Set`. -/
abbrev I32Set := OMap 32 Unit

/-- `LogosI64Map::insert`, data/src/types.rs:539-565. -/
def I64Map.insert (m : I64Map) (k v : BitVec 64) : Option I64Map := OMap.insert 0#64 m k v
/-- `LogosI64Map::get`, data/src/types.rs:584-608. -/
def I64Map.get (m : I64Map) (k : BitVec 64) : Option (Option (BitVec 64)) := OMap.get 0#64 m k
/-- `LogosI64Set::insert`, data/src/types.rs:702-725. -/
def I64Set.insert (m : I64Set) (k _v : BitVec 64) : Option I64Set := OMap.insert () m k ()
/-- `LogosI64Set::contains_key`, data/src/types.rs:746-766. -/
def I64Set.contains (m : I64Set) (k : BitVec 64) : Option Bool := (OMap.get () m k).map Option.isSome
/-- `LogosI32Map::insert`, data/src/types.rs:844-869: `key as i32`, `value as i32`. -/
def I32Map.insert (m : I32Map) (k v : BitVec 64) : Option I32Map :=
  OMap.insert 0#32 m (k.setWidth 32) (v.setWidth 32)
/-- `LogosI32Map::get`, data/src/types.rs:891-911: the value sign-extended. -/
def I32Map.get (m : I32Map) (k : BitVec 64) : Option (Option (BitVec 64)) :=
  (OMap.get 0#32 m (k.setWidth 32)).map (Option.map (BitVec.signExtend 64))
/-- `LogosI32Set::insert`, data/src/types.rs:990-1012. -/
def I32Set.insert (m : I32Set) (k _v : BitVec 64) : Option I32Set := OMap.insert () m (k.setWidth 32) ()
/-- `LogosI32Set::contains_key`, data/src/types.rs:1034-1054. -/
def I32Set.contains (m : I32Set) (k : BitVec 64) : Option Bool :=
  (OMap.get () m (k.setWidth 32)).map Option.isSome

/-- Specification: the value last inserted for the key. -/
def lastFor {K A : Type} [DecidableEq K] (k : K) : List (K × A) → Option A
  | [] => none
  | (k', v) :: rest =>
    match lastFor k rest with
    | some x => some x
    | none => if k' = k then some v else none

end Verif.Data
