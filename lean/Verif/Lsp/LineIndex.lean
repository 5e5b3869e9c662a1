/-!
# Model of `LineIndex` (`crates/logicaffeine_lsp/src/line_index.rs`)

The source is a list of characters; a byte offset counts UTF-8 bytes.  Simplifications: numbers are
unbounded where the code converts to 32 bits; `\n` is looked for among characters where the code
looks among bytes (in UTF-8 the byte 10 occurs only as the character `\n`).  Slicing a string inside
a character panics: `none`.
-/
namespace Verif.Lsp

/-- Length in UTF-8 bytes (`str::len`). -/
def blen : List Char → Nat
  | [] => 0
  | c :: cs => c.utf8Size + blen cs

/-- `char::len_utf16`. -/
def units (c : Char) : Nat := if c.toNat < 65536 then 1 else 2

/-- Length in UTF-16 code units (`encode_utf16().count()`). -/
def ulen : List Char → Nat
  | [] => 0
  | c :: cs => units c + ulen cs

/-- The loop of `new` (`line_index.rs` 19–23), from byte offset `o`. -/
def startsFrom (o : Nat) : List Char → List Nat
  | [] => []
  | c :: cs => if c = '\n' then (o + c.utf8Size) :: startsFrom (o + c.utf8Size) cs
    else startsFrom (o + c.utf8Size) cs

/-- `LineIndex::new` (`line_index.rs` 17–28). -/
def lineStarts (cs : List Char) : List Nat := 0 :: startsFrom 0 cs

/-- `&s[n..]`, which panics inside a character. -/
def dropBytes : Nat → List Char → Option (List Char)
  | 0, cs => some cs
  | _ + 1, [] => none
  | n + 1, c :: cs => if n + 1 < c.utf8Size then none else dropBytes (n + 1 - c.utf8Size) cs

/-- `&s[..n]`, which panics inside a character. -/
def takeBytes : Nat → List Char → Option (List Char)
  | 0, _ => some []
  | _ + 1, [] => none
  | n + 1, c :: cs =>
    if n + 1 < c.utf8Size then none else (takeBytes (n + 1 - c.utf8Size) cs).map (c :: ·)

/-- `&s[a..b]`; it also panics when `b < a`. -/
def slice (cs : List Char) (a b : Nat) : Option (List Char) :=
  if b < a then none else (dropBytes a cs).bind (takeBytes (b - a))

/-- `partition_point(|&start| start <= b)` on an ascending list. -/
def startsUpTo (starts : List Nat) (b : Nat) : Nat := (starts.takeWhile (· ≤ b)).length

/-- `LineIndex::position` (`line_index.rs` 33–49): line and UTF-16 character. -/
def position (cs : List Char) (b : Nat) : Option (Nat × Nat) :=
  let b := min b (blen cs)
  let line := startsUpTo (lineStarts cs) b - 1
  match (lineStarts cs)[line]? with
  | none => none
  | some start => (slice cs start b).map fun text => (line, ulen text)

/-- `LineIndex::line_start_offset` (`line_index.rs` 53–58). -/
def lineStartOffset (cs : List Char) (line : Nat) : Nat :=
  ((lineStarts cs)[line]?).getD (blen cs)

/-- `LineIndex::utf16_length` (`line_index.rs` 61–68). -/
def utf16Length (cs : List Char) (a b : Nat) : Option Nat :=
  let a := min a (blen cs)
  let b := min b (blen cs)
  if a ≥ b then some 0 else (slice cs a b).map ulen

/-- The loop of `offset` (`line_index.rs` 88–93): the byte index in the line, counted from `i`, at
which `u` reaches the target, if it does. -/
def scan (target : Nat) : Nat → Nat → List Char → Option Nat
  | _, _, [] => none
  | i, u, c :: cs => if u ≥ target then some i else scan target (i + c.utf8Size) (u + units c) cs

/-- `LineIndex::offset` (`line_index.rs` 71–96). -/
def offset (cs : List Char) (line character : Nat) : Option Nat :=
  match (lineStarts cs)[line]? with
  | none => some (blen cs)
  | some start =>
    let stop := ((lineStarts cs)[line + 1]?).getD (blen cs)
    (slice cs start stop).map fun text =>
      match scan character 0 0 text with
      | some i => start + i
      | none => stop

end Verif.Lsp
