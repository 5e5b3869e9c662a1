/-!
# The journal — model of `logicaffeine_system/src/storage/mod.rs` and `distributed.rs`

The bytes of a journal entry, the replay of a journal at mount time, and the checksum.  The value type
`T`, its `Merge::merge` and the `bincode` encoding of journal operations are parameters; what is assumed
of them is stated as a hypothesis of each theorem.
-/
namespace Verif.Store

abbrev Byte := BitVec 8
abbrev Bytes := List Byte

/-- One bit of the CRC-32 register (IEEE polynomial, reflected): the published algorithm computed by
`crc32fast::hash`, which is outside the repository. -/
def crcBit (r : BitVec 32) : BitVec 32 :=
  if r.getLsbD 0 then (r >>> 1) ^^^ 0xEDB88320#32 else r >>> 1

/-- One byte of CRC-32. -/
def crcByte (r : BitVec 32) (b : Byte) : BitVec 32 :=
  crcBit (crcBit (crcBit (crcBit (crcBit (crcBit (crcBit (crcBit (r ^^^ b.setWidth 32))))))))

/-- `crc32fast::hash` (called at storage/mod.rs:74 and 142). -/
def crc32 (p : Bytes) : BitVec 32 := ~~~ (p.foldl crcByte 0xFFFFFFFF#32)

/-- `u32::to_le_bytes`. -/
def u32Bytes (x : BitVec 32) : Bytes :=
  [x.extractLsb' 0 8, x.extractLsb' 8 8, x.extractLsb' 16 8, x.extractLsb' 24 8]

/-- `u32::from_le_bytes`, on a slice of four bytes. -/
def u32Of (b0 b1 b2 b3 : Byte) : BitVec 32 := b3 ++ b2 ++ b1 ++ b0

/-- `enum JournalOp<T>` (storage/mod.rs:60-65, distributed.rs:60-66). -/
inductive Op (T : Type)
  | snapshot (s : T)
  | delta (d : T)
deriving DecidableEq

/-- The `bincode` encoding and decoding of journal operations (external crate, a parameter). -/
structure Codec (T : Type) where
  ser : Op T → Bytes
  de : Bytes → Option (Op T)

/-- `VfsError` as far as replay raises it (storage/mod.rs:145-147, 150-151). -/
inductive Err
  | corrupted (entry : Nat)
  | undecodable
deriving DecidableEq

/-- `Result<A, VfsError>`. -/
inductive Res (A : Type)
  | ok (a : A)
  | err (e : Err)
deriving DecidableEq

variable {T : Type}

/-- `JournalHeader::encode` (storage/mod.rs:72-80): the length is cast to `u32`, so it wraps. -/
def header (p : Bytes) : Bytes := u32Bytes (BitVec.ofNat 32 p.length) ++ u32Bytes (crc32 p)

/-- A whole entry: header, then payload (storage/mod.rs:208-215, distributed.rs:340-343). -/
def entry (c : Codec T) (op : Op T) : Bytes := header (c.ser op) ++ c.ser op

/-- The `match op` of the replay loop (storage/mod.rs:153-156). -/
def Op.apply (merge : T → T → T) : Op T → T → T
  | .snapshot s, _ => s
  | .delta d, st => merge st d

/-- What one pass through the replay loop does with the bytes from `pos` on. -/
inductive Next (T : Type)
  | stop
  | fail (e : Err)
  | op (o : Op T) (rest : Bytes)

/-- The checks on a payload (storage/mod.rs:141-151): checksum first, then decoding. -/
def openPayload (c : Codec T) (n : Nat) (want : BitVec 32) (payload rest : Bytes) : Next T :=
  if crc32 payload ≠ want then .fail (.corrupted n)
  else match c.de payload with
    | none => .fail .undecodable
    | some o => .op o rest

/-- One pass through the loop of `replay_journal` (storage/mod.rs:131-160) over the bytes from `pos`
on: fewer than eight bytes, or fewer payload bytes than announced, end the replay. -/
def nextEntry (c : Codec T) (n : Nat) : Bytes → Next T
  | b0 :: b1 :: b2 :: b3 :: c0 :: c1 :: c2 :: c3 :: rest =>
    if rest.length < (u32Of b0 b1 b2 b3).toNat then .stop
    else openPayload c n (u32Of c0 c1 c2 c3) (rest.take (u32Of b0 b1 b2 b3).toNat)
      (rest.drop (u32Of b0 b1 b2 b3).toNat)
  | _ => .stop

/-- The loop of `replay_journal` (storage/mod.rs:131-163); every pass consumes at least eight bytes, so
the length of the data is enough fuel. -/
def replayLoop (c : Codec T) (merge : T → T → T) : Nat → Bytes → T → Nat → Res (T × Nat)
  | 0, _, s, n => .ok (s, n)
  | fuel + 1, data, s, n =>
    match nextEntry c n data with
    | .stop => .ok (s, n)
    | .fail e => .err e
    | .op o rest => replayLoop c merge fuel rest (o.apply merge s) (n + 1)

/-- `replay_journal` (storage/mod.rs:123-164, distributed.rs:89-130).  `dflt` is `T::default()`, which
for a CRDT carries a replica id drawn afresh at every call. -/
def replay (c : Codec T) (merge : T → T → T) (dflt : T) (data : Bytes) : Res (T × Nat) :=
  replayLoop c merge data.length data dflt 0

/-- `mount` (storage/mod.rs:177-192, distributed.rs:184-221): the state and the entry count; no file
means the default state. -/
def mount (c : Codec T) (merge : T → T → T) (dflt : T) : Option Bytes → Res (T × Nat)
  | none => .ok (dflt, 0)
  | some data => replay c merge dflt data

end Verif.Store
