import Mathlib.Data.List.Basic
import Mathlib.Data.Nat.Bitwise

/-! # Direct-addressed maps and sets: `LogosDenseI64Map`, `LogosDenseI64MapNoPresence`,
`LogosDenseI64Set`, data/src/types.rs:1089-1330

Keys and values are integers in the `i64` range; a `u64` bitset word is a natural number below 2^64.
`none` is a failed `debug_assert` or an index panic. -/
namespace Verif.Data

/-- `slots.div_ceil(64)`. -/
def wordsFor (slots : Nat) : Nat := (slots + 63) / 64

/-- `1u64 << (idx & 63)`. -/
def bitOf (idx : Nat) : Nat := 1 <<< (idx &&& 63)

/-- `present[idx >> 6] & bit != 0`; `none` is the index panic. -/
def bitSet (present : List Nat) (idx : Nat) : Option Bool :=
  match present[idx >>> 6]? with
  | none => none
  | some word => some (decide (word &&& bitOf idx ≠ 0))

/-- The presence update shared by the map and the set, data/src/types.rs:1133-1138, 1294-1299: the
new words and length. -/
def markBit (present : List Nat) (len idx : Nat) : Option (List Nat × Nat) :=
  match present[idx >>> 6]? with
  | none => none
  | some word =>
    if word &&& bitOf idx = 0 then some (present.set (idx >>> 6) (word ||| bitOf idx), len + 1)
    else some (present, len)

/-- `LogosDenseI64Map`, data/src/types.rs:1089-1099. -/
structure DMap where
  data : List Int
  present : List Nat
  lo : Int
  len : Nat
deriving DecidableEq, Repr

/-- `with_bounds`, data/src/types.rs:1115-1122. -/
def DMap.withBounds (lo : Int) (slots : Nat) : DMap :=
  ⟨List.replicate slots 0, List.replicate (wordsFor slots) 0, lo, 0⟩

/-- `with_capacity`, data/src/types.rs:1108-1110. -/
def DMap.withCapacity (cap : Nat) : DMap := DMap.withBounds 0 cap

/-- `(key - self.lo) as usize`, checked against the window as the `debug_assert` does. -/
def denseIdx (lo key : Int) (size : Nat) : Option Nat :=
  if key ≥ lo ∧ (key - lo).toNat < size then some (key - lo).toNat else none

/-- `insert`, data/src/types.rs:1125-1140. -/
def DMap.insert (m : DMap) (key value : Int) : Option DMap :=
  match denseIdx m.lo key m.data.length with
  | none => none
  | some idx =>
    match markBit m.present m.len idx with
    | none => none
    | some (p, l) => some { m with present := p, len := l, data := m.data.set idx value }

/-- `get`, data/src/types.rs:1143-1156; the outer `none` is a panic. -/
def DMap.get (m : DMap) (key : Int) : Option (Option Int) :=
  match denseIdx m.lo key m.data.length with
  | none => none
  | some idx =>
    match bitSet m.present idx with
    | none => none
    | some true => (m.data[idx]?).map some
    | some false => some none

/-- `contains_key`, data/src/types.rs:1159-1163. -/
def DMap.contains (m : DMap) (key : Int) : Option Bool :=
  match denseIdx m.lo key m.data.length with
  | none => none
  | some idx => bitSet m.present idx

/-- `LogosDenseI64MapNoPresence`, data/src/types.rs:1198-1204. -/
structure DMapNP where
  data : List Int
  lo : Int
  len : Nat
deriving DecidableEq, Repr

/-- `with_bounds`, data/src/types.rs:1215-1217. -/
def DMapNP.withBounds (lo : Int) (slots : Nat) : DMapNP := ⟨List.replicate slots 0, lo, 0⟩

/-- `insert`, data/src/types.rs:1220-1230. -/
def DMapNP.insert (m : DMapNP) (key value : Int) : Option DMapNP :=
  match denseIdx m.lo key m.data.length with
  | none => none
  | some idx => some { m with data := m.data.set idx value, len := m.len + 1 }

/-- `get`, data/src/types.rs:1233-1242. -/
def DMapNP.get (m : DMapNP) (key : Int) : Option (Option Int) :=
  match denseIdx m.lo key m.data.length with
  | none => none
  | some idx => (m.data[idx]?).map some

/-- `LogosDenseI64Set`, data/src/types.rs:1265-1269. -/
structure DSet where
  present : List Nat
  lo : Int
  len : Nat
deriving DecidableEq, Repr

/-- `with_bounds`, data/src/types.rs:1280-1282. -/
def DSet.withBounds (lo : Int) (slots : Nat) : DSet := ⟨List.replicate (wordsFor slots) 0, lo, 0⟩

/-- `insert`, data/src/types.rs:1287-1300 (the value is dropped). -/
def DSet.insert (m : DSet) (key : Int) (_value : Int) : Option DSet :=
  match denseIdx m.lo key (m.present.length * 64) with
  | none => none
  | some idx =>
    match markBit m.present m.len idx with
    | none => none
    | some (p, l) => some { m with present := p, len := l }

/-- `contains_key`, data/src/types.rs:1303-1307. -/
def DSet.contains (m : DSet) (key : Int) : Option Bool :=
  match denseIdx m.lo key (m.present.length * 64) with
  | none => none
  | some idx => bitSet m.present idx

/-- A sequence of insertions. -/
def DMap.run (m : DMap) : List (Int × Int) → Option DMap
  | [] => some m
  | (k, v) :: rest =>
    match m.insert k v with
    | none => none
    | some m' => m'.run rest

/-- A sequence of insertions. -/
def DMapNP.run (m : DMapNP) : List (Int × Int) → Option DMapNP
  | [] => some m
  | (k, v) :: rest =>
    match m.insert k v with
    | none => none
    | some m' => m'.run rest

/-- A sequence of insertions. -/
def DSet.run (m : DSet) : List (Int × Int) → Option DSet
  | [] => some m
  | (k, v) :: rest =>
    match m.insert k v with
    | none => none
    | some m' => m'.run rest

end Verif.Data
