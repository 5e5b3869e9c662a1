import Verif.Net.WireLemmas
/-! # Stream framing (`logicaffeine_compile::concurrency::stream`) and file chunks
(`logicaffeine_system::network::sipping`)

Bytes are natural numbers below 256. -/
namespace Verif.Net

/-- The length loop of `frame_for_stream`, compile/src/concurrency/stream.rs:15-26. -/
def frameLen (len : Nat) : List Nat :=
  if h : len >>> 7 ≠ 0 then ((len &&& 127) ||| 128) :: frameLen (len >>> 7) else [len &&& 127]
termination_by len
decreasing_by
  rw [Nat.shiftRight_eq_div_pow] at h ⊢
  exact Nat.div_lt_self (by omega) (by decide)

/-- `frame_for_stream(body, out)`, compile/src/concurrency/stream.rs:14-28: the bytes appended. -/
def frameForStream (body : List Nat) : List Nat := frameLen body.length ++ body

/-- `read_uvarint` of compile/src/concurrency/stream.rs:90-104: the value and the number of bytes
read; `none` is "wait". -/
def streamUvarintLoop (value shift i : Nat) : List Nat → Option (Nat × Nat)
  | [] => none
  | b :: rest =>
    let v := value ||| (((b &&& 127) <<< shift) % 18446744073709551616)
    if b &&& 128 = 0 then some (v, i + 1)
    else if shift + 7 ≥ 64 then none
    else streamUvarintLoop v (shift + 7) (i + 1) rest

/-- `read_uvarint(buf)`, compile/src/concurrency/stream.rs:90-104. -/
def streamUvarint (buf : List Nat) : Option (Nat × Nat) := streamUvarintLoop 0 0 0 buf

/-- `StreamDeframer`, compile/src/concurrency/stream.rs:33-37. -/
structure Deframer where
  buf : List Nat
  start : Nat
deriving DecidableEq, Repr

/-- `StreamDeframer::new`, compile/src/concurrency/stream.rs:40-42. -/
def Deframer.new : Deframer := ⟨[], 0⟩

/-- `push`, compile/src/concurrency/stream.rs:45-47. -/
def Deframer.push (d : Deframer) (bytes : List Nat) : Deframer := { d with buf := d.buf ++ bytes }

/-- `is_empty`, compile/src/concurrency/stream.rs:50-52. -/
def Deframer.isEmpty (d : Deframer) : Bool := d.start ≥ d.buf.length

/-- `pending`, compile/src/concurrency/stream.rs:55-57. -/
def Deframer.pending (d : Deframer) : Nat := d.buf.length - d.start

/-- The loop of `drain_frames`, compile/src/concurrency/stream.rs:64-79: the bodies handed to `f` and
the new `start`.  Each round moves `start` forward by at least one byte, so `buf.len() + 1` rounds
are enough (`fuel`).  `body_start.checked_add(len as usize)` fails when the sum passes `usize::MAX`. -/
def drainLoop (buf : List Nat) : Nat → Nat → List (List Nat) × Nat
  | 0, start => ([], start)
  | fuel + 1, start =>
    match streamUvarint (buf.drop start) with
    | none => ([], start)
    | some (len, header) =>
      let bodyStart := start + header
      if bodyStart + len ≥ 18446744073709551616 then ([], start)
      else if bodyStart + len > buf.length then ([], start)
      else
        let r := drainLoop buf fuel (bodyStart + len)
        (((buf.drop bodyStart).take len) :: r.1, r.2)

/-- `drain_frames`, compile/src/concurrency/stream.rs:63-85: the bodies delivered and the new state. -/
def Deframer.drain (d : Deframer) : List (List Nat) × Deframer :=
  let r := drainLoop d.buf (d.buf.length + 1) d.start
  (r.1, if r.2 > 0 then ⟨d.buf.drop r.2, 0⟩ else ⟨d.buf, r.2⟩)

/-- What a consumer does with a deframer. -/
inductive StreamOp where
  | push (bytes : List Nat)
  | drain
deriving DecidableEq, Repr

/-- Running a consumer's calls: the frames delivered, in order, and the final state. -/
def runStream (d : Deframer) : List StreamOp → List (List Nat) × Deframer
  | [] => ([], d)
  | .push b :: ops => runStream (d.push b) ops
  | .drain :: ops =>
    let r := d.drain
    let q := runStream r.2 ops
    (r.1 ++ q.1, q.2)

/-- Specification: the bytes a producer of the messages `ms` writes, in order. -/
def framesOf (ms : List (List Nat)) : List Nat := (ms.map frameForStream).flatten

/-- Specification: the bytes pushed by a script. -/
def pushedBytes : List StreamOp → List Nat
  | [] => []
  | .push b :: ops => b ++ pushedBytes ops
  | .drain :: ops => pushedBytes ops

/-! ## File chunks -/

/-- `usize` results in a build without overflow checks. -/
def wrap64 (x : Nat) : Nat := x % 18446744073709551616

/-- `FileSipper::chunk_count`, system/src/network/sipping.rs:87-94.  `none` is the division-by-zero
panic. -/
def chunkCount (size chunkSize : Nat) : Option Nat :=
  if size = 0 then some 0
  else if chunkSize = 0 then none
  else some (wrap64 (wrap64 (size + chunkSize) + 18446744073709551615) / chunkSize)

/-- `FileSipper::get_chunk`, system/src/network/sipping.rs:100-109.  `none` is the slice-index
panic. -/
def getChunk (file : List Nat) (chunkSize index : Nat) : Option (List Nat) :=
  let start := wrap64 (index * chunkSize)
  let stop := min (wrap64 (start + chunkSize)) file.length
  if start ≥ file.length then some []
  else if start ≤ stop then some ((file.drop start).take (stop - start)) else none

/-- The chunks the manifest lists, system/src/network/sipping.rs:125-139, with the hash function
`sha` a parameter: the hashes, in index order. -/
def manifestHashes {H : Type} (sha : List Nat → H) (file : List Nat) (chunkSize : Nat) :
    Option (List H) :=
  match chunkCount file.length chunkSize with
  | none => none
  | some n => (List.range n).mapM fun i => (getChunk file chunkSize i).map sha

end Verif.Net
