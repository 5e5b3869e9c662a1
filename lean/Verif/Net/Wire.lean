import Mathlib.Data.List.Basic
/-! # The shared wire codec of `logicaffeine_data::wire`

A byte is a natural number below 256.  `buf` with the cursor `pos` is modelled by the bytes from
`pos` on, so a read returns the value and the bytes that are left; `buf.get(pos)` failing is the
empty list.  `usize` is 64 bits. -/
namespace Verif.Net

/-- `write_uvarint`, data/src/wire.rs:37-43. -/
def writeUvarint (x : Nat) : List Nat :=
  if h : 128 ≤ x then ((x % 256) ||| 128) :: writeUvarint (x >>> 7) else [x % 256]
termination_by x
decreasing_by
  rw [Nat.shiftRight_eq_div_pow]
  exact Nat.div_lt_self (by omega) (by decide)

/-- The loop of `read_uvarint`, data/src/wire.rs:50-61.  `result` is a `u64`, so bits shifted
beyond the 64th are dropped. -/
def readUvarintLoop (result shift : Nat) : List Nat → Option (Nat × List Nat)
  | [] => none
  | b :: rest =>
    if shift ≥ 64 then none
    else
      let r := result ||| (((b &&& 127) <<< shift) % 18446744073709551616)
      if b &&& 128 = 0 then some (r, rest) else readUvarintLoop r (shift + 7) rest

/-- `read_uvarint`, data/src/wire.rs:47-62. -/
def readUvarint (bs : List Nat) : Option (Nat × List Nat) := readUvarintLoop 0 0 bs

/-- `zigzag`, data/src/wire.rs:66-68. -/
def zigzag (x : BitVec 64) : BitVec 64 := (x <<< 1) ^^^ (x.sshiftRight 63)

/-- `unzigzag`, data/src/wire.rs:72-74. -/
def unzigzag (x : BitVec 64) : BitVec 64 := (x >>> 1) ^^^ (-(x &&& 1#64))

/-- `write_str`, data/src/wire.rs:78-81.  A text is its list of bytes. -/
def writeStr (s : List Nat) : List Nat := writeUvarint s.length ++ s

/-- `buf.get(pos..pos+n)` followed by `pos += n`. -/
def takeBytes (n : Nat) (bs : List Nat) : Option (List Nat × List Nat) :=
  if n ≤ bs.length then some (bs.take n, bs.drop n) else none

/-- `read_str`, data/src/wire.rs:85-90.  `utf8` decides whether bytes are well-formed UTF-8
(`String::from_utf8`). -/
def readStr (utf8 : List Nat → Bool) (bs : List Nat) : Option (List Nat × List Nat) :=
  match readUvarint bs with
  | none => none
  | some (n, rest) =>
    match takeBytes n rest with
    | none => none
    | some (s, rest') => if utf8 s then some (s, rest') else none

/-- `expect_tag`, data/src/wire.rs:94-101. -/
def expectTag (t : Nat) : List Nat → Option (List Nat)
  | [] => none
  | b :: rest => if b = t then some rest else none

/-- `write_inductive_header`, data/src/wire.rs:108-113. -/
def writeHeader (ty ctor : List Nat) (nargs : Nat) : List Nat :=
  18 :: (writeStr ty ++ writeStr ctor ++ writeUvarint nargs)

/-- `read_inductive_header`, data/src/wire.rs:118-124. -/
def readHeader (utf8 : List Nat → Bool) (bs : List Nat) :
    Option ((List Nat × List Nat × Nat) × List Nat) :=
  match expectTag 18 bs with
  | none => none
  | some r0 =>
    match readStr utf8 r0 with
    | none => none
    | some (ty, r1) =>
      match readStr utf8 r1 with
      | none => none
      | some (ctor, r2) =>
        match readUvarint r2 with
        | none => none
        | some (n, r3) => some ((ty, ctor, n), r3)

/-- The types a field can have: `i64`, `bool`, `f64`, `String`, `Vec`/`LogosSeq` of one, or a
generated enum, data/src/wire.rs:140-252 and compile/src/codegen/types.rs:45-59.  `Box<T>` has the
bytes of `T` (wire.rs:198-207), so it is `T`. -/
inductive WTy where
  | int | bool | float | text
  | list (t : WTy)
  | named (n : List Nat)
deriving DecidableEq, Repr

/-- A value: integers and float bit patterns are 64-bit words, texts are their bytes, an enum value
is its enum name, its variant name and its fields. -/
inductive WVal where
  | int (x : BitVec 64)
  | bool (b : Bool)
  | float (bits : BitVec 64)
  | text (s : List Nat)
  | list (vs : List WVal)
  | data (ty ctor : List Nat) (args : List WVal)

/-- The program's enums: name, then variants, each with its name and field types. -/
abbrev Schema := List (List Nat × List (List Nat × List WTy))

/-- Lookup of an enum or of a variant by name: the first `match` arm with that name. -/
def lookupName {A : Type} (n : List Nat) : List (List Nat × A) → Option A
  | [] => none
  | (m, a) :: rest => if m = n then some a else lookupName n rest

/-- `f64::to_le_bytes`. -/
def leBytes : Nat → Nat → List Nat
  | 0, _ => []
  | k + 1, x => (x % 256) :: leBytes k (x / 256)

/-- `f64::from_le_bytes`. -/
def leValue : List Nat → Nat
  | [] => 0
  | b :: bs => b + 256 * leValue bs

mutual
/-- `wire_encode`, data/src/wire.rs:140-240; for enums the code emitted by `emit_enum_wire_impls`,
compile/src/codegen/types.rs:75-92. -/
def encode : WVal → List Nat
  | .int x => 3 :: writeUvarint (zigzag x).toNat
  | .bool b => [if b then 2 else 1]
  | .float x => 4 :: leBytes 8 x.toNat
  | .text s => 6 :: writeStr s
  | .list vs => 13 :: (writeUvarint vs.length ++ encodeAll vs)
  | .data ty ctor args => writeHeader ty ctor args.length ++ encodeAll args
/-- The loop `for e in self { e.wire_encode(out) }`, and the fields of a variant in order. -/
def encodeAll : List WVal → List Nat
  | [] => []
  | v :: vs => encode v ++ encodeAll vs
end

/-- The loop `for _ in 0..n { xs.push(T::wire_decode(buf, pos)?) }`, data/src/wire.rs:223-226. -/
def decodeMany (dec : List Nat → Option (WVal × List Nat)) :
    Nat → List Nat → Option (List WVal × List Nat)
  | 0, bs => some ([], bs)
  | n + 1, bs =>
    match dec bs with
    | none => none
    | some (v, rest) =>
      match decodeMany dec n rest with
      | none => none
      | some (vs, rest') => some (v :: vs, rest')

/-- The fields of a variant, decoded in order, compile/src/codegen/types.rs:104-110. -/
def decodeFields (dec : WTy → List Nat → Option (WVal × List Nat)) :
    List WTy → List Nat → Option (List WVal × List Nat)
  | [], bs => some ([], bs)
  | t :: ts, bs =>
    match dec t bs with
    | none => none
    | some (v, rest) =>
      match decodeFields dec ts rest with
      | none => none
      | some (vs, rest') => some (v :: vs, rest')

/-- `i64::wire_decode`, data/src/wire.rs:147-150. -/
def decodeInt (bs : List Nat) : Option (WVal × List Nat) :=
  match expectTag 3 bs with
  | none => none
  | some r =>
    match readUvarint r with
    | none => none
    | some (u, r') => some (.int (unzigzag (BitVec.ofNat 64 u)), r')

/-- `bool::wire_decode`, data/src/wire.rs:159-167. -/
def decodeBool : List Nat → Option (WVal × List Nat)
  | [] => none
  | t :: rest => if t = 2 then some (.bool true, rest) else if t = 1 then some (.bool false, rest) else none

/-- `f64::wire_decode`, data/src/wire.rs:177-182. -/
def decodeFloat (bs : List Nat) : Option (WVal × List Nat) :=
  match expectTag 4 bs with
  | none => none
  | some r =>
    match takeBytes 8 r with
    | none => none
    | some (b, r') => some (.float (BitVec.ofNat 64 (leValue b)), r')

/-- `String::wire_decode`, data/src/wire.rs:192-195. -/
def decodeText (utf8 : List Nat → Bool) (bs : List Nat) : Option (WVal × List Nat) :=
  match expectTag 6 bs with
  | none => none
  | some r =>
    match readStr utf8 r with
    | none => none
    | some (s, r') => some (.text s, r')

/-- `Vec<T>::wire_decode`, data/src/wire.rs:219-227 (and `LogosSeq<T>`, 243-251). -/
def decodeList (dec : List Nat → Option (WVal × List Nat)) (bs : List Nat) :
    Option (WVal × List Nat) :=
  match expectTag 13 bs with
  | none => none
  | some r =>
    match readUvarint r with
    | none => none
    | some (n, r') =>
      match decodeMany dec n r' with
      | none => none
      | some (vs, r'') => some (.list vs, r'')

/-- The generated `wire_decode` of an enum, compile/src/codegen/types.rs:93-118: the type name and
the argument count in the header are ignored, the variant is found by name. -/
def decodeData (utf8 : List Nat → Bool) (dec : WTy → List Nat → Option (WVal × List Nat))
    (name : List Nat) (variants : List (List Nat × List WTy)) (bs : List Nat) :
    Option (WVal × List Nat) :=
  match readHeader utf8 bs with
  | none => none
  | some ((_, ctor, _), r) =>
    match lookupName ctor variants with
    | none => none
    | some tys =>
      match decodeFields dec tys r with
      | none => none
      | some (args, r') => some (.data name ctor args, r')

/-- `wire_decode` at each type.  `fuel` bounds the nesting depth; `decode` supplies more than any
buffer can use. -/
def decodeF (utf8 : List Nat → Bool) (env : Schema) : Nat → WTy → List Nat → Option (WVal × List Nat)
  | 0, _, _ => none
  | _ + 1, .int, bs => decodeInt bs
  | _ + 1, .bool, bs => decodeBool bs
  | _ + 1, .float, bs => decodeFloat bs
  | _ + 1, .text, bs => decodeText utf8 bs
  | f + 1, .list t, bs => decodeList (decodeF utf8 env f t) bs
  | f + 1, .named n, bs =>
    match lookupName n env with
    | none => none
    | some variants => decodeData utf8 (decodeF utf8 env f) n variants bs

/-- `T::wire_decode(buf, pos)`.  Every nested value starts with a tag byte, so the nesting depth is
at most the number of bytes.  (Exhausting the native stack is not modelled.) -/
def decode (utf8 : List Nat → Bool) (env : Schema) (t : WTy) (bs : List Nat) :
    Option (WVal × List Nat) := decodeF utf8 env (bs.length + 1) t bs

mutual
/-- Specification: `v` is a value of type `t` that fits the machine. -/
def HasTy (utf8 : List Nat → Bool) (env : Schema) : WVal → WTy → Prop
  | .int _, t => t = .int
  | .bool _, t => t = .bool
  | .float _, t => t = .float
  | .text s, t => t = .text ∧ utf8 s = true ∧ s.length < 2 ^ 64
  | .list vs, t => ∃ e, t = .list e ∧ vs.length < 2 ^ 64 ∧ AllTy utf8 env vs e
  | .data n c args, t => t = .named n ∧ utf8 n = true ∧ n.length < 2 ^ 64 ∧
      utf8 c = true ∧ c.length < 2 ^ 64 ∧ args.length < 2 ^ 64 ∧
      ∃ variants tys, lookupName n env = some variants ∧ lookupName c variants = some tys ∧
        FieldsTy utf8 env args tys
/-- Every element has the element type. -/
def AllTy (utf8 : List Nat → Bool) (env : Schema) : List WVal → WTy → Prop
  | [], _ => True
  | v :: vs, t => HasTy utf8 env v t ∧ AllTy utf8 env vs t
/-- The fields have the declared types, one each. -/
def FieldsTy (utf8 : List Nat → Bool) (env : Schema) : List WVal → List WTy → Prop
  | [], ts => ts = []
  | v :: vs, ts => ∃ t rest, ts = t :: rest ∧ HasTy utf8 env v t ∧ FieldsTy utf8 env vs rest
end

end Verif.Net
