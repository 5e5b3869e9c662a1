import Verif.Store.Journal
/-!
# One process using a persistent value, and the crashes that can hit it

Operations of `Persistent<T>` (and of `Distributed<T>` without a topic) run one after the other; every
crash is followed by a fresh mount.  The native filesystem (`fs/mod.rs:207-276`): an append that is cut
off leaves some first bytes; `write` goes to a temporary file that is then renamed, so the journal is
either the old or the new file.
-/
namespace Verif.Store
variable {T : Type}

/-- The process and its directory: `inner`, `entry_count`, the journal file and the temporary file. -/
structure Node (T : Type) where
  mem : T
  count : Nat
  file : Option Bytes
  temp : Option Bytes

/-- `NativeVfs::append` (fs/mod.rs:235-256): creates the file if it is missing. -/
def appendTo (f : Option Bytes) (bs : Bytes) : Option Bytes := some (f.getD [] ++ bs)

/-- A process that has just mounted the journal found in the directory. -/
def boot (c : Codec T) (merge : T → T → T) (dflt : T) (file temp : Option Bytes) : Res (Node T) :=
  match mount c merge dflt file with
  | .ok (s, n) => .ok ⟨s, n, file, temp⟩
  | .err e => .err e

/-- What can happen to a process. -/
inductive Ev (T : Type)
  /-- an acknowledged `mutate(f)` -/
  | mutate (f : T → T)
  /-- a completed `compact()` -/
  | compact
  /-- a clean stop and a new mount -/
  | restart (dflt : T)
  /-- the process dies in `mutate(f)` when `k` bytes of the entry are on the disk, and mounts again -/
  | crashMutate (f : T → T) (k : Nat) (dflt : T)
  /-- the process dies in `compact()`: `k` bytes of the temporary file written, or the rename done
  but the entry count not yet reset -/
  | crashCompact (renamed : Bool) (k : Nat) (dflt : T)

/-- `Persistent::mutate` (storage/mod.rs:200-220): run `f`, append the whole new state as a delta. -/
def Node.mutate (c : Codec T) (f : T → T) (x : Node T) : Node T :=
  { x with mem := f x.mem, count := x.count + 1, file := appendTo x.file (entry c (.delta (f x.mem))) }

/-- `Persistent::compact` (storage/mod.rs:223-239) and `Distributed::do_compact`
(distributed.rs:353-370): the new journal replaces the old one by a rename. -/
def Node.compact (c : Codec T) (x : Node T) : Node T :=
  { x with count := 1, file := some (entry c (.snapshot x.mem)), temp := none }

/-- The journal left by a process that died in `mutate(f)` after `k` bytes. -/
def Node.torn (c : Codec T) (f : T → T) (k : Nat) (x : Node T) : Option Bytes :=
  appendTo x.file ((entry c (.delta (f x.mem))).take k)

/-- One event; an error is a mount that failed. -/
def Node.step (c : Codec T) (merge : T → T → T) (x : Node T) : Ev T → Res (Node T)
  | .mutate f => .ok (x.mutate c f)
  | .compact => .ok (x.compact c)
  | .restart d => boot c merge d x.file x.temp
  | .crashMutate f k d => boot c merge d (x.torn c f k) x.temp
  | .crashCompact true _ d => boot c merge d (some (entry c (.snapshot x.mem))) none
  | .crashCompact false k d => boot c merge d x.file (some ((entry c (.snapshot x.mem)).take k))

/-- A whole history. -/
def Node.run (c : Codec T) (merge : T → T → T) (x : Node T) : List (Ev T) → Res (Node T)
  | [] => .ok x
  | e :: es =>
    match x.step c merge e with
    | .ok y => y.run c merge es
    | .err e => .err e

/-- `maybe_compact(threshold)` (storage/mod.rs:247-254). -/
def Node.maybeCompact (c : Codec T) (threshold : Nat) (x : Node T) : Node T × Bool :=
  if x.count > threshold then (x.compact c, true) else (x, false)

end Verif.Store
