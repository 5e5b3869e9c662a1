/-!
# UUIDs (`crates/logicaffeine_base/src/uuid.rs`)

Bytes are natural numbers below 256, arrays are lists.  Both builds are modelled: the portable one and
the one with vector instructions, the latter instruction by instruction on lists of sixteen lanes.
Texts are modelled after the blanks around them have been removed.
-/
namespace Verif.Num.Uuid

/-! ## Vector instructions -/

/-- A vector of sixteen bytes. -/
abbrev V := List Nat

/-- `_mm_loadu_si128` of a buffer at an offset. -/
def load (b : List Nat) (k : Nat) : V := (List.range 16).map fun i => b.getD (k + i) 0

/-- `_mm_set1_epi8`. -/
def set1 (x : Nat) : V := List.replicate 16 x

/-- A bytewise operation on two vectors. -/
def lanes (f : Nat → Nat → Nat) (a b : V) : V := List.zipWith f a b

/-- `_mm_and_si128`. -/
def vand : V → V → V := lanes (· &&& ·)
/-- `_mm_or_si128`. -/
def vor : V → V → V := lanes (· ||| ·)
/-- `_mm_add_epi8`. -/
def vadd : V → V → V := lanes fun a b => (a + b) % 256
/-- `_mm_max_epu8`. -/
def vmax : V → V → V := lanes max
/-- `_mm_min_epu8`. -/
def vmin : V → V → V := lanes min
/-- `_mm_cmpeq_epi8`. -/
def vcmpeq : V → V → V := lanes fun a b => if a = b then 255 else 0

/-- An operation on the sixteen-bit lanes, low byte first. -/
def wide (f : Nat → Nat) : V → V
  | a :: b :: v => f (a + 256 * b) % 256 :: f (a + 256 * b) / 256 % 256 :: wide f v
  | v => v

/-- `_mm_srli_epi16`. -/
def srli (v : V) (k : Nat) : V := wide (· >>> k) v
/-- `_mm_slli_epi16`. -/
def slli (v : V) (k : Nat) : V := wide (· <<< k) v

/-- `_mm_shuffle_epi8`: a lane of the mask with its top bit set gives zero. -/
def shuffle (v mask : V) : V := mask.map fun i => if 128 ≤ i then 0 else v.getD (i % 16) 0

/-- Interleaving. -/
def interleave : V → V → V
  | a :: as, b :: bs => a :: b :: interleave as bs
  | _, _ => []

/-- `_mm_unpacklo_epi8`. -/
def unpacklo (a b : V) : V := interleave (a.take 8) (b.take 8)
/-- `_mm_unpackhi_epi8`. -/
def unpackhi (a b : V) : V := interleave (a.drop 8) (b.drop 8)

/-- `_mm_alignr_epi8`. -/
def alignr (a b : V) (k : Nat) : V := ((b ++ a).drop k).take 16

/-- `_mm_maddubs_epi16` with the weights 16 and 1, as sixteen-bit lanes (they saturate). -/
def maddubs : V → List Nat
  | a :: b :: v => min (a * 16 + b * 1) 32767 :: maddubs v
  | _ => []

/-- `_mm_packus_epi16` of lanes that are not negative, with zeroes for the second half. -/
def packus (v : List Nat) : V := v.map (min · 255) ++ List.replicate 8 0

/-- `_mm_movemask_epi8(v) == 0xffff`: the top bit of every lane is set. -/
def allSet (v : V) : Bool := v.all fun x => decide (128 ≤ x)

/-! ## Hexadecimal -/

/-- `HEX_DECODE` (`uuid.rs` 342–356). -/
def hexDecode (c : Nat) : Nat :=
  if 48 ≤ c ∧ c < 58 then c - 48
  else if 97 ≤ c ∧ c < 103 then 10 + (c - 97)
  else if 65 ≤ c ∧ c < 71 then 10 + (c - 65)
  else 255

/-- `hex_val` (`uuid.rs` 358–365). -/
def hexVal (c : Nat) : Option Nat :=
  if 48 ≤ c ∧ c ≤ 57 then some (c - 48)
  else if 97 ≤ c ∧ c ≤ 102 then some (c - 97 + 10)
  else if 65 ≤ c ∧ c ≤ 70 then some (c - 65 + 10)
  else none

/-- `HEX` in `HEX_PAIRS` (`uuid.rs` 370): `0123456789abcdef`. -/
def hexTable : List Nat := [48, 49, 50, 51, 52, 53, 54, 55, 56, 57, 97, 98, 99, 100, 101, 102]

/-- `HEX_PAIRS` (`uuid.rs` 369–378). -/
def hexPair (b : Nat) : List Nat := [hexTable.getD (b >>> 4) 0, hexTable.getD (b &&& 15) 0]

/-- `encode_canonical_scalar` (`uuid.rs` 405–428); the writes into the buffer are in order. -/
def encodeScalar (b : List Nat) : List Nat :=
  (b.take 4).flatMap hexPair ++ [45] ++ ((b.drop 4).take 2).flatMap hexPair ++ [45] ++
    ((b.drop 6).take 2).flatMap hexPair ++ [45] ++ ((b.drop 8).take 2).flatMap hexPair ++ [45] ++
    ((b.drop 10).take 6).flatMap hexPair

/-- `x86_hex::encode_canonical` (`uuid.rs` 441–473). -/
def encodeSimd (b : List Nat) : List Nat :=
  let v := load b 0
  let hi := vand (srli v 4) (set1 15)
  let lo := vand v (set1 15)
  let hiHex := shuffle hexTable hi
  let loHex := shuffle hexTable lo
  let h0 := unpacklo hiHex loHex
  let h1 := unpackhi hiHex loHex
  let outLo := vor (shuffle h0 [0, 1, 2, 3, 4, 5, 6, 7, 128, 8, 9, 10, 11, 128, 12, 13])
    [0, 0, 0, 0, 0, 0, 0, 0, 45, 0, 0, 0, 0, 45, 0, 0]
  let mid := alignr h1 h0 14
  let outMid := vor (shuffle mid [0, 1, 128, 2, 3, 4, 5, 128, 6, 7, 8, 9, 10, 11, 12, 13])
    [0, 0, 45, 0, 0, 0, 0, 45, 0, 0, 0, 0, 0, 0, 0, 0]
  outLo ++ outMid ++ (h1.drop 12).take 4

/-- `encode_canonical` (`uuid.rs` 384–401); `simd` says which build or processor it is. -/
def encode (simd : Bool) (b : List Nat) : List Nat := if simd then encodeSimd b else encodeScalar b

/-- `encode_many` (`uuid.rs` 588–599). -/
def encodeMany (simd : Bool) (ids : List (List Nat)) : List Nat := ids.flatMap (encode simd)

/-! ## Reading -/

/-- `PAIRS` (`uuid.rs` 294). -/
def pairs : List Nat := [0, 2, 4, 6, 9, 11, 14, 16, 19, 21, 24, 26, 28, 30, 32, 34]

/-- The loop of the portable `parse_canonical` (`uuid.rs` 295–300). -/
def scalarLoop (arr : List Nat) : List Nat → Nat → List Nat → Nat × List Nat
  | [], bad, out => (bad, out)
  | p :: ps, bad, out =>
    let hi := hexDecode (arr.getD p 0)
    let lo := hexDecode (arr.getD (p + 1) 0)
    scalarLoop arr ps (bad ||| (hi ||| lo)) (out ++ [(hi <<< 4) % 256 ||| (lo &&& 15)])

/-- The four hyphens (`uuid.rs` 276–278). -/
def hyphens (arr : List Nat) : Bool :=
  arr.getD 8 0 == 45 && arr.getD 13 0 == 45 && arr.getD 18 0 == 45 && arr.getD 23 0 == 45

/-- The portable decoding (`uuid.rs` 291–306). -/
def decodeScalar (arr : List Nat) : Option (List Nat) :=
  let r := scalarLoop arr pairs 0 []
  if r.1 < 16 then some r.2 else none

/-- `nibbles` (`uuid.rs` 478–484). -/
def nibbles (c : V) : V :=
  let lo := vand c (set1 15)
  let hi := srli (vand c (set1 64)) 6
  let hi8 := slli hi 3
  vadd (vadd lo hi8) hi

/-- `clamp` in `hex_ok` (`uuid.rs` 494–496). -/
def clamp (cf : V) (lo hi : Nat) : V := vcmpeq (vmin (vmax cf (set1 lo)) (set1 hi)) cf

/-- `hex_ok` (`uuid.rs` 491–498). -/
def hexOk (c : V) : V :=
  let cf := vor c (set1 32)
  vor (clamp cf 48 57) (clamp cf 97 102)

/-- `nib` in `decode_core` (`uuid.rs` 526). -/
def nib (c : Nat) : Nat := ((c &&& 15) + 9 * (c >>> 6)) &&& 15

/-- `decode_core` (`uuid.rs` 507–530): the bytes and the validity mask.  The second store overwrites
byte 7, the tail overwrites byte 14. -/
def decodeCore (b : List Nat) : List Nat × V :=
  let l0 := load b 0
  let l1 := load b 16
  let ra := shuffle l0 [0, 1, 2, 3, 4, 5, 6, 7, 9, 10, 11, 12, 14, 15, 0, 0]
  let rb := shuffle l1 [0, 1, 3, 4, 5, 6, 8, 9, 10, 11, 12, 13, 14, 15, 0, 0]
  let ba := packus (maddubs (nibbles ra))
  let bb := packus (maddubs (nibbles rb))
  ((ba.take 8).take 7 ++ (bb.take 8).take 7 ++
    [(nib (b.getD 32 0) <<< 4) % 256 ||| nib (b.getD 33 0),
     (nib (b.getD 34 0) <<< 4) % 256 ||| nib (b.getD 35 0)],
   vand (hexOk ra) (hexOk rb))

/-- The check of the last four characters (`uuid.rs` 540–543 and 570–573). -/
def tail (b : List Nat) : Nat :=
  hexDecode (b.getD 32 0) ||| hexDecode (b.getD 33 0) ||| hexDecode (b.getD 34 0) |||
    hexDecode (b.getD 35 0)

/-- `x86_hex::parse_hyphenated` (`uuid.rs` 536–549). -/
def decodeSimd (b : List Nat) : Option (List Nat) :=
  let r := decodeCore b
  if allSet r.2 ∧ tail b < 16 then some r.1 else none

/-- `parse_canonical` (`uuid.rs` 275–308). -/
def parseCanonical (simd : Bool) (arr : List Nat) : Option (List Nat) :=
  if hyphens arr then (if simd then decodeSimd arr else decodeScalar arr) else none

/-- The loop collecting digits in `parse` (`uuid.rs` 241–253). -/
def collect : Nat → List Nat → List Nat → Option (List Nat)
  | _, [], hex => some hex
  | i, c :: cs, hex =>
    if i = 8 ∨ i = 13 ∨ i = 18 ∨ i = 23 then
      if c ≠ 45 then none else collect (i + 1) cs hex
    else if 32 ≤ hex.length then none
    else collect (i + 1) cs (hex ++ [c])

/-- The loop decoding digits in `parse` (`uuid.rs` 263–267). -/
def decodePairs : List Nat → Option (List Nat)
  | a :: b :: r => do
    let hi ← hexVal a
    let lo ← hexVal b
    let rest ← decodePairs r
    return ((hi <<< 4) % 256 ||| lo) :: rest
  | _ => some []

/-- `urn:uuid:` -/
def urnLower : List Nat := [117, 114, 110, 58, 117, 117, 105, 100, 58]
/-- `URN:UUID:` -/
def urnUpper : List Nat := [85, 82, 78, 58, 85, 85, 73, 68, 58]

/-- `strip_prefix`. -/
def stripPrefix (p s : List Nat) : Option (List Nat) :=
  if p <+: s then some (s.drop p.length) else none

/-- `strip_prefix('{')` and `strip_suffix('}')` (`uuid.rs` 231). -/
def stripBraces (s : List Nat) : List Nat :=
  match s with
  | 123 :: t => if t.getLast? = some 125 then t.dropLast else s
  | _ => s

/-- `Uuid::parse` (`uuid.rs` 221–269) of a text without blanks around it. -/
def parse (simd : Bool) (s : List Nat) : Option (List Nat) :=
  if s.length = 36 then parseCanonical simd s
  else
    let s := ((stripPrefix urnLower s).or (stripPrefix urnUpper s)).getD s
    let s := stripBraces s
    if s.length = 36 then (collect 0 s []).bind fun h => if h.length = 32 then decodePairs h else none
    else if s.length = 32 then decodePairs s
    else none

/-- `chunks_exact(36)`. -/
def chunks : Nat → List Nat → List (List Nat)
  | 0, _ => []
  | n + 1, s => s.take 36 :: chunks n (s.drop 36)

/-- The loop of `x86_hex::parse_batch` (`uuid.rs` 567–578): hyphens, tails and masks so far. -/
def batchLoop : List (List Nat) → Nat → Nat → V → List (List Nat) → Nat × Nat × V × List (List Nat)
  | [], dash, bad, acc, out => (dash, bad, acc, out)
  | b :: bs, dash, bad, acc, out =>
    let d := (b.getD 8 0 ^^^ 45) ||| (b.getD 13 0 ^^^ 45) ||| (b.getD 18 0 ^^^ 45) ||| (b.getD 23 0 ^^^ 45)
    let r := decodeCore b
    batchLoop bs (dash ||| d) (bad ||| tail b) (vand acc r.2) (out ++ [r.1])

/-- `x86_hex::parse_batch` (`uuid.rs` 560–584). -/
def parseBatch (cs : List (List Nat)) : Option (List (List Nat)) :=
  match batchLoop cs 0 0 (set1 255) [] with
  | (dash, bad, acc, out) => if dash = 0 ∧ bad < 16 ∧ allSet acc then some out else none

/-- `Uuid::parse_many` (`uuid.rs` 313–337). -/
def parseMany (simd : Bool) (packed : List Nat) : Option (List (List Nat)) :=
  if packed = [] ∨ packed.length % 36 ≠ 0 then none
  else
    let cs := chunks (packed.length / 36) packed
    if simd then parseBatch cs else cs.mapM (parseCanonical false)

/-! ## Making -/

/-- `u128::from_be_bytes` and its narrower relatives. -/
def fromBE (bs : List Nat) : Nat := bs.foldl (fun n b => n * 256 + b) 0

/-- `to_be_bytes` of a number of the given length. -/
def toBE : Nat → Nat → List Nat
  | 0, _ => []
  | n + 1, v => toBE n (v / 256) ++ [v % 256]

/-- `Uuid::stamp` (`uuid.rs` 132–137). -/
def stamp (bytes : List Nat) (version : Nat) : List Nat :=
  let v := fromBE bytes
  let v := (v &&& (2 ^ 128 - 1 - (15 <<< 76))) ||| (version <<< 76)
  let v := (v &&& (2 ^ 128 - 1 - (3 <<< 62))) ||| (2 <<< 62)
  toBE 16 v

/-- `Uuid::new_v1` (`uuid.rs` 142–155). -/
def newV1 (timestamp clockSeq : Nat) (node : List Nat) : List Nat :=
  let ts := timestamp &&& 0x0FFFFFFFFFFFFFFF
  let low := ts &&& 0xFFFFFFFF
  let mid := (ts >>> 32) &&& 0xFFFF
  let hi := (ts >>> 48) &&& 0x0FFF
  stamp (toBE 4 low ++ toBE 2 mid ++ toBE 2 hi ++ [(clockSeq >>> 8) % 256, clockSeq &&& 0xFF] ++ node) 1

/-- `Uuid::new_v6` (`uuid.rs` 159–172). -/
def newV6 (timestamp clockSeq : Nat) (node : List Nat) : List Nat :=
  let ts := timestamp &&& 0x0FFFFFFFFFFFFFFF
  let high := (ts >>> 28) &&& 0xFFFFFFFF
  let mid := (ts >>> 12) &&& 0xFFFF
  let low := ts &&& 0x0FFF
  stamp (toBE 4 high ++ toBE 2 mid ++ toBE 2 low ++ [(clockSeq >>> 8) % 256, clockSeq &&& 0xFF] ++ node) 6

/-- `Uuid::new_v3` and `new_v5` (`uuid.rs` 178–192) with the digest as a parameter; the inline buffer
and the allocated one hold the same bytes. -/
def newNamed (digest : List Nat → List Nat) (version : Nat) (ns name : List Nat) : List Nat :=
  stamp ((digest (ns ++ name)).take 16) version

/-- `Uuid::new_v4` (`uuid.rs` 197–199). -/
def newV4 (random : List Nat) : List Nat := stamp random 4

/-- `Uuid::new_v7` (`uuid.rs` 204–210). -/
def newV7 (ms : Nat) (random : List Nat) : List Nat :=
  stamp ((toBE 8 (ms &&& 0xFFFFFFFFFFFF)).drop 2 ++ random) 7

/-- `Uuid::new_v8` (`uuid.rs` 214–216). -/
def newV8 (bytes : List Nat) : List Nat := stamp bytes 8

/-- `Uuid::version` (`uuid.rs` 110–112). -/
def version (u : List Nat) : Nat := u.getD 6 0 >>> 4

/-- `Variant` (`uuid.rs` 49–58). -/
inductive Variant where
  | ncs
  | rfc
  | microsoft
  | future
deriving DecidableEq

/-- `Uuid::variant` (`uuid.rs` 115–126). -/
def variant (u : List Nat) : Variant :=
  let b := u.getD 8 0
  if b &&& 0x80 = 0 then .ncs
  else if b &&& 0xC0 = 0x80 then .rfc
  else if b &&& 0xE0 = 0xC0 then .microsoft
  else .future

end Verif.Num.Uuid
