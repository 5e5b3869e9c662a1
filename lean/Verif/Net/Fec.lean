import Verif.Net.Gf
import Verif.Net.Wire
/-! # Erasure coding: `logicaffeine_compile::concurrency::fec`

Matrices are lists of rows, as in the code.  An index out of range (a panic in the code) reads as
zero or the empty row; the theorems only concern matrices of the right shape, where none occurs. -/
namespace Verif.Net

/-- `row[j]`. -/
def rget (row : List Byte) (j : Nat) : Byte := row.getD j (Byte.ofNat 0)

/-- `a[i][j]`. -/
def mget (a : List (List Byte)) (i j : Nat) : Byte := rget (a.getD i []) j

/-- `let mut acc = 0u8; for t in 0..n { acc ^= f(t) }`, compile/src/concurrency/fec.rs:120-123,
160-163, 200-203. -/
def xorSum (n : Nat) (f : Nat → Byte) : Byte :=
  (List.range n).foldl (fun acc t => acc.xor (f t)) (Byte.ofNat 0)

/-- The augmented matrix `[m | I]`, compile/src/concurrency/fec.rs:75-83. -/
def augment (m : List (List Byte)) : List (List Byte) :=
  m.mapIdx fun i row =>
    row ++ (List.range m.length).map fun j => if i = j then Byte.ofNat 1 else Byte.ofNat 0

/-- The pivot search `while piv < k && a[piv][col] == 0 { piv += 1 }`,
compile/src/concurrency/fec.rs:85-88.  `left` counts the rows still to look at (`k - piv`). -/
def findPivot (a : List (List Byte)) (col : Nat) : Nat → Nat → Nat
  | 0, piv => piv
  | left + 1, piv =>
    if mget a piv col = Byte.ofNat 0 then findPivot a col left (piv + 1) else piv

/-- `a.swap(col, piv)`, compile/src/concurrency/fec.rs:92. -/
def swapRows (a : List (List Byte)) (i j : Nat) : List (List Byte) :=
  (a.set i (a.getD j [])).set j (a.getD i [])

/-- Scaling the pivot row, compile/src/concurrency/fec.rs:93-96. -/
def scaleRow (a : List (List Byte)) (col : Nat) : List (List Byte) :=
  let invP := gdiv (Byte.ofNat 1) (mget a col col)
  a.set col ((a.getD col []).map fun x => gmul x invP)

/-- Clearing the column from the other rows, compile/src/concurrency/fec.rs:97-107.  Each row is
changed by itself and the pivot row, which is not changed, so the loop is a map. -/
def clearCol (a : List (List Byte)) (col : Nat) : List (List Byte) :=
  let prow := a.getD col []
  a.mapIdx fun row r =>
    if row = col then r
    else
      let f := rget r col
      if f = Byte.ofNat 0 then r else List.zipWith (fun x y => x.xor (gmul f y)) r prow

/-- One round of `for col in 0..k`, compile/src/concurrency/fec.rs:84-108; `none` is "singular". -/
def gjStep (k : Nat) (a : List (List Byte)) (col : Nat) : Option (List (List Byte)) :=
  let piv := findPivot a col (k - col) col
  if piv = k then none else some (clearCol (scaleRow (swapRows a col piv) col) col)

/-- The rounds `col, col+1, ...` (`n` of them). -/
def gjLoop (k : Nat) : Nat → Nat → List (List Byte) → Option (List (List Byte))
  | 0, _, a => some a
  | n + 1, col, a =>
    match gjStep k a col with
    | none => none
    | some a' => gjLoop k n (col + 1) a'

/-- `invert`, compile/src/concurrency/fec.rs:72-110. -/
def invert (m : List (List Byte)) : Option (List (List Byte)) :=
  match gjLoop m.length m.length 0 (augment m) with
  | none => none
  | some a => some (a.map fun r => (r.drop m.length).take m.length)

/-- `matmul`, compile/src/concurrency/fec.rs:113-129. -/
def matmul (a b : List (List Byte)) : List (List Byte) :=
  a.map fun row => (List.range (b.getD 0 []).length).map fun j =>
    xorSum b.length fun t => gmul (rget row t) (mget b t j)

/-- The Vandermonde matrix of `encode_matrix`, compile/src/concurrency/fec.rs:136-138. -/
def vander (n k : Nat) : List (List Byte) :=
  (List.range n).map fun i => (List.range k).map fun j => gpow (Byte.ofNat i) j

/-- `encode_matrix`, compile/src/concurrency/fec.rs:135-142. -/
def encodeMatrix (n k : Nat) : Option (List (List Byte)) :=
  match invert ((vander n k).take k) with
  | none => none
  | some inv => some (matmul (vander n k) inv)

/-- `data.len().div_ceil(k).max(1)`, compile/src/concurrency/fec.rs:151. -/
def shardLen (len k : Nat) : Nat := max ((len + k - 1) / k) 1

/-- `padded.resize(k * shard_len, 0)`, compile/src/concurrency/fec.rs:152-153.  (The data is never
longer than that.) -/
def padTo (data : List Byte) (n : Nat) : List Byte := data ++ List.replicate (n - data.length) (Byte.ofNat 0)

/-- `encode`, compile/src/concurrency/fec.rs:147-169. -/
def fecEncode (data : List Byte) (k n : Nat) : Option (Nat × List (List Byte)) :=
  if k = 0 ∨ n < k ∨ n > 256 then none
  else
    let sl := shardLen data.length k
    let padded := padTo data (k * sl)
    match encodeMatrix n k with
    | none => none
    | some e =>
      some (data.length, (List.range n).map fun i => (List.range sl).map fun b =>
        xorSum k fun j => gmul (mget e i j) (rget padded (j * sl + b)))

/-- The selection loop of `decode`, compile/src/concurrency/fec.rs:182-193: the first `k` usable,
distinct shards, in arrival order. -/
def pickShards (k n sl : Nat) : List (Nat × List Byte) → List (Nat × List Byte) → List (Nat × List Byte)
  | acc, [] => acc
  | acc, (idx, shard) :: rest =>
    if idx ≥ n ∨ shard.length ≠ sl ∨ idx ∈ acc.map Prod.fst then pickShards k n sl acc rest
    else
      let acc' := acc ++ [(idx, shard)]
      if acc'.length = k then acc' else pickShards k n sl acc' rest

/-- `decode`, compile/src/concurrency/fec.rs:173-212. -/
def fecDecode (origLen k n : Nat) (have_ : List (Nat × List Byte)) : Option (List Byte) :=
  if k = 0 ∨ n < k ∨ n > 256 ∨ have_ = [] then none
  else
    let sl := (have_.headD (0, [])).2.length
    match encodeMatrix n k with
    | none => none
    | some e =>
      let picked := pickShards k n sl [] have_
      if picked.length < k then none
      else
        match invert (picked.map fun p => e.getD p.1 []) with
        | none => none
        | some minv =>
          let vals := picked.map Prod.snd
          let data := ((List.range k).map fun j => (List.range sl).map fun b =>
            xorSum k fun r => gmul (mget minv j r) (mget vals r b)).flatten
          if origLen > data.length then none else some (data.take origLen)

/-! ## Framing -/

/-- The little-endian bytes of a number, as `u8`s. -/
def leB (w x : Nat) : List Byte := (leBytes w x).map Byte.ofNat

/-- The number with these little-endian bytes. -/
def leV (bs : List Byte) : Nat := leValue (bs.map Byte.toNat)

/-- `frame_shard`, compile/src/concurrency/fec.rs:224-234.  `leB` truncates as the casts do. -/
def frameShard (msgId k n origLen index : Nat) (shard : List Byte) : List Byte :=
  Byte.ofNat 254 :: (leB 8 msgId ++ leB 2 k ++ leB 2 n ++ leB 4 origLen ++ leB 2 index ++ shard)

/-- `ShardHeader`, compile/src/concurrency/fec.rs:236-242. -/
structure ShardHeader where
  msgId : Nat
  k : Nat
  n : Nat
  origLen : Nat
  index : Nat
deriving DecidableEq, Repr

/-- `parse_shard`, compile/src/concurrency/fec.rs:244-256. -/
def parseShard (bytes : List Byte) : Option (ShardHeader × List Byte) :=
  if bytes.length < 19 ∨ rget bytes 0 ≠ Byte.ofNat 254 then none
  else some (⟨leV ((bytes.drop 1).take 8), leV ((bytes.drop 9).take 2), leV ((bytes.drop 11).take 2),
    leV ((bytes.drop 13).take 4), leV ((bytes.drop 17).take 2)⟩, bytes.drop 19)

/-- `frame_redundant`, compile/src/concurrency/fec.rs:268-277. -/
def frameRedundant (msgId : Nat) (payload : List Byte) (k n : Nat) : Option (List (List Byte)) :=
  match fecEncode payload k n with
  | none => none
  | some (ol, shards) => some (shards.mapIdx fun i s => frameShard msgId k n ol i s)

/-- A group of `reconstruct_redundant`: the header of the first shard and the shards accepted. -/
structure ShardGroup where
  k : Nat
  n : Nat
  origLen : Nat
  shards : List (Nat × List Byte)

/-- Adding a parsed shard to the groups, compile/src/concurrency/fec.rs:289-299.  The hash map is an
association list in order of first arrival. -/
def addShard (h : ShardHeader) (shard : List Byte) : List (Nat × ShardGroup) → List (Nat × ShardGroup)
  | [] => [(h.msgId, ⟨h.k, h.n, h.origLen, [(h.index, shard)]⟩)]
  | (id, g) :: rest =>
    if id = h.msgId then
      if g.k = h.k ∧ g.n = h.n ∧ g.origLen = h.origLen ∧ h.index ∉ g.shards.map Prod.fst then
        (id, { g with shards := g.shards ++ [(h.index, shard)] }) :: rest
      else (id, g) :: rest
    else (id, g) :: addShard h shard rest

/-- The grouping loop, compile/src/concurrency/fec.rs:288-300. -/
def groupShards (received : List (List Byte)) : List (Nat × ShardGroup) :=
  received.foldl (fun gs bytes =>
    match parseShard bytes with
    | none => gs
    | some (h, s) => addShard h s gs) []

/-- The second loop of `reconstruct_redundant`, compile/src/concurrency/fec.rs:301-307: the first
group, in the order the map yields them, that decodes. -/
def firstDecoded : List (Nat × ShardGroup) → Option (Nat × List Byte)
  | [] => none
  | (id, g) :: rest =>
    if g.shards.length ≥ g.k then
      match fecDecode g.origLen g.k g.n g.shards with
      | some data => some (id, data)
      | none => firstDecoded rest
    else firstDecoded rest

/-- `reconstruct_redundant`, compile/src/concurrency/fec.rs:284-308.  The hash map's iteration order
is a parameter `order`, any permutation of the groups. -/
def reconstructRedundant (order : List (Nat × ShardGroup) → List (Nat × ShardGroup))
    (received : List (List Byte)) : Option (Nat × List Byte) :=
  firstDecoded (order (groupShards received))

/-! ## The receiving inbox -/

/-- The shard buffers and the delivered payloads of a `NetInbox` (`recv_shards` and the calls of
`enqueue_received`), compile/src/concurrency/net_inbox.rs.  The hash map of buffers is a function. -/
structure ShardInbox where
  bufs : Nat → List (List Byte)
  delivered : List (List Byte)

/-- An inbox that has received nothing. -/
def ShardInbox.new : ShardInbox := ⟨fun _ => [], []⟩

/-- Handling of one arriving frame addressed to the inbox, compile/src/concurrency/net_inbox.rs:224-240:
a shard is buffered under its message id, and when the buffer holds `k` frames reconstruction is
tried; success empties the buffer and hands the payload over. -/
def ShardInbox.receive (order : List (Nat × ShardGroup) → List (Nat × ShardGroup)) (s : ShardInbox)
    (data : List Byte) : ShardInbox :=
  match parseShard data with
  | none => { s with delivered := s.delivered ++ [data] }
  | some (h, _) =>
    let buf := s.bufs h.msgId ++ [data]
    let recovered := if buf.length ≥ h.k then reconstructRedundant order buf else none
    match recovered with
    | none => { s with bufs := fun i => if i = h.msgId then buf else s.bufs i }
    | some (_, payload) =>
      ⟨fun i => if i = h.msgId then [] else s.bufs i, s.delivered ++ [payload]⟩

end Verif.Net
