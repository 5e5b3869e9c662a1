import Verif.Crdt.World
import Verif.Crdt.VClock
import Verif.Common.SortBy
/-!
# Replicated sequences — models of `logicaffeine_data/src/crdt/sequence/{rga,yata}.rs`

The two files share their shape: a list of nodes with unique ids, a parent (`parent` / `origin_left`),
tombstones, and a document order computed by a depth-first walk. They differ in how the walk orders
siblings on its work stack and in the extra field `origin_right` of YATA, which the walk never reads.
Logical clocks are unbounded here (`u64` there).
-/
namespace Verif.Crdt

/-- `RgaId` (rga.rs:24-29), `YataId` (yata.rs:23-28). -/
structure SeqId where
  ts : Nat
  rep : Nat
deriving DecidableEq, Repr

/-- `cmp(a, b) != Greater` of `Ord for RgaId` (rga.rs:37-45), `Ord for YataId` (yata.rs:36-43). -/
def SeqId.le (a b : SeqId) : Bool :=
  if a.ts = b.ts then decide (a.rep ≤ b.rep) else decide (a.ts ≤ b.ts)

/-- `RgaNode` (rga.rs:55-61), `YataItem` (yata.rs:53-61; `extra` is `origin_right`). -/
structure SeqNode (X T : Type) where
  id : SeqId
  value : T
  deleted : Bool
  parent : Option SeqId
  extra : X
deriving DecidableEq

/-- `RGA` (rga.rs:68-75), `YATA` (yata.rs:68-72; `clock` is `timestamp`). -/
structure Seq (X T : Type) where
  nodes : List (SeqNode X T)
  timestamp : Nat
  replicaId : Rid

namespace Seq
variable {X T : Type}

/-- Vec::push of each element of `l`; the stack is a list with the top first. -/
def pushAll {N : Type} (l st : List N) : List N := l.foldl (fun st x => x :: st) st

/-- The `while let Some(node) = stack.pop()` loop (rga.rs:202-212, yata.rs:192-208). `kids p` are the
nodes pushed for parent `p`, in pushing order. The code's loop has no bound; the fuel is shown to
suffice (`dfs_complete` in `SeqOrder.lean`). -/
def walk (kids : Option SeqId → List (SeqNode X T)) : Nat → List (SeqNode X T) → List (SeqNode X T)
  | 0, _ => []
  | _ + 1, [] => []
  | f + 1, n :: st => n :: walk kids f (pushAll (kids (some n.id)) st)

/-- Nodes pushed for a parent in `RGA::sorted_nodes` (rga.rs:182-190, 197-199, 206-210): the children,
sorted by id descending, pushed in reverse. -/
def rgaKids (nodes : List (SeqNode X T)) (p : Option SeqId) : List (SeqNode X T) :=
  (sortBy (fun a b => b.id.le a.id) (nodes.filter (fun n => decide (n.parent = p)))).reverse

/-- `RGA::sorted_nodes` (rga.rs:180-215). -/
def rgaSorted (nodes : List (SeqNode X T)) : List (SeqNode X T) :=
  walk (rgaKids nodes) nodes.length (pushAll (rgaKids nodes none) [])

/-- Nodes pushed for a parent in `YATA::sorted_items` (yata.rs:184-191, 196-206): the followers sorted
by id ascending. -/
def yataKids (nodes : List (SeqNode X T)) (p : Option SeqId) : List (SeqNode X T) :=
  sortBy (fun a b => a.id.le b.id) (nodes.filter (fun n => decide (n.parent = p)))

/-- `YATA::sorted_items` (yata.rs:180-211). -/
def yataSorted (nodes : List (SeqNode X T)) : List (SeqNode X T) :=
  walk (yataKids nodes) nodes.length (pushAll (yataKids nodes none) [])

/-- What distinguishes the two types: the document order and the extra field of new nodes. -/
structure Impl (X T : Type) where
  sorted : List (SeqNode X T) → List (SeqNode X T)
  /-- `origin_right` of a node inserted before the visible position given, if any -/
  extra : List (SeqNode X T) → Option Nat → X

/-- `visible_nodes` / `visible_items` (rga.rs:173-177, yata.rs:175-177). -/
def visible (M : Impl X T) (s : Seq X T) : List (SeqNode X T) :=
  (M.sorted s.nodes).filter (fun n => !n.deleted)

def rgaImpl : Impl Unit T := ⟨rgaSorted, fun _ _ => ()⟩

/-- `origin_right`: `None` in `append` (yata.rs:98), `visible_id_at(index + 1)` in `insert_after`
(yata.rs:105), `visible_id_at(0)` in `insert_before(0)` (yata.rs:125). -/
def yataImpl : Impl (Option SeqId) T where
  sorted := yataSorted
  extra := fun nodes pos =>
    match pos with
    | none => none
    | some i => (((yataSorted nodes).filter (fun n => !n.deleted))[i]?).map SeqNode.id

/-- `RGA::new` (rga.rs:79-85), `YATA::new` (yata.rs:76-82). -/
def new (id : Rid) : Seq X T := ⟨[], 0, id⟩

/-- `visible_id_at` (rga.rs:227-229, yata.rs:221-223). -/
def visibleIdAt (M : Impl X T) (s : Seq X T) (i : Nat) : Option SeqId :=
  ((s.visible M)[i]?).map SeqNode.id

/-- `last_visible_id` (rga.rs:218-224, yata.rs:213-219). -/
def lastVisibleId (M : Impl X T) (s : Seq X T) : Option SeqId := (s.visible M).getLast?.map SeqNode.id

/-- `append` (rga.rs:93-104, yata.rs:90-102). -/
def append (M : Impl X T) (v : T) (s : Seq X T) : Seq X T :=
  { s with timestamp := s.timestamp + 1
           nodes := s.nodes ++ [⟨⟨s.timestamp + 1, s.replicaId⟩, v, false, s.lastVisibleId M, M.extra s.nodes none⟩] }

/-- `insert_after` (rga.rs:125-136, yata.rs:105-119). -/
def insertAfter (M : Impl X T) (i : Nat) (v : T) (s : Seq X T) : Seq X T :=
  { s with timestamp := s.timestamp + 1
           nodes := s.nodes ++ [⟨⟨s.timestamp + 1, s.replicaId⟩, v, false, s.visibleIdAt M i, M.extra s.nodes (some (i + 1))⟩] }

/-- `insert_before` (rga.rs:107-122, yata.rs:122-138). -/
def insertBefore (M : Impl X T) (i : Nat) (v : T) (s : Seq X T) : Seq X T :=
  match i with
  | 0 => { s with timestamp := s.timestamp + 1
                  nodes := s.nodes ++ [⟨⟨s.timestamp + 1, s.replicaId⟩, v, false, none, M.extra s.nodes (some 0)⟩] }
  | i + 1 => insertAfter M i v s

/-- `iter_mut().find(|n| n.id == id)` and `deleted = true` on the node found: the first one with that id. -/
def markFirst (id : SeqId) : List (SeqNode X T) → List (SeqNode X T)
  | [] => []
  | n :: t => if n.id = id then { n with deleted := true } :: t else n :: markFirst id t

/-- `remove` (rga.rs:139-145, yata.rs:141-147). -/
def remove (M : Impl X T) (i : Nat) (s : Seq X T) : Seq X T :=
  match s.visibleIdAt M i with
  | some id => { s with nodes := markFirst id s.nodes }
  | none => s

/-- `to_vec` (rga.rs:163-165, yata.rs:165-167). -/
def toVec (M : Impl X T) (s : Seq X T) : List T := (s.visible M).map SeqNode.value

/-- `get` (rga.rs:148-150, yata.rs:150-152). -/
def get (M : Impl X T) (s : Seq X T) (i : Nat) : Option T := ((s.visible M)[i]?).map SeqNode.value

/-- `len` (rga.rs:153-155, yata.rs:155-157). -/
def len (M : Impl X T) (s : Seq X T) : Nat := (s.visible M).length

/-- Body of the loop of `merge` and `apply_delta` (rga.rs:239-250, 280-287, yata.rs:229-238, 260-269). -/
def mergeNode (mine : List (SeqNode X T)) (o : SeqNode X T) : List (SeqNode X T) :=
  if mine.any (fun n => decide (n.id = o.id)) then
    if o.deleted then markFirst o.id mine else mine
  else mine ++ [o]

/-- `merge` (rga.rs:233-252, yata.rs:226-239). -/
def merge (s o : Seq X T) : Seq X T :=
  { s with timestamp := max s.timestamp o.timestamp, nodes := o.nodes.foldl mergeNode s.nodes }

/-- `version` (rga.rs:291-304, yata.rs:273-284): the largest timestamp per replica, reached by single
increments. -/
def version (s : Seq X T) : VClock :=
  s.nodes.foldl (fun c n =>
    (List.replicate (n.id.ts - c.get n.id.rep) ()).foldl (fun c _ => c.increment n.id.rep) c) .new

/-- `RGA::delta_since` (rga.rs:259-276). -/
def rgaDelta (s : Seq X T) (since : VClock) : Option (List (SeqNode X T) × Nat) :=
  if since.dominates s.version then none
  else some (s.nodes.filter (fun n => decide (n.id.ts > since.get n.id.rep)), s.timestamp)

/-- `YATA::delta_since` (yata.rs:245-255): everything. -/
def yataDelta (s : Seq X T) (since : VClock) : Option (List (SeqNode X T) × Nat) :=
  if since.dominates s.version then none else some (s.nodes, s.timestamp)

/-- `apply_delta` (rga.rs:278-289, yata.rs:257-271). -/
def applyDelta (s : Seq X T) (d : List (SeqNode X T) × Nat) : Seq X T :=
  { s with timestamp := max s.timestamp d.2, nodes := d.1.foldl mergeNode s.nodes }

inductive Op (T : Type)
  | append (v : T)
  | insertAfter (i : Nat) (v : T)
  | insertBefore (i : Nat) (v : T)
  | remove (i : Nat)
deriving DecidableEq

def apply (M : Impl X T) : Op T → Seq X T → Seq X T
  | .append v => append M v
  | .insertAfter i v => insertAfter M i v
  | .insertBefore i v => insertBefore M i v
  | .remove i => remove M i

def rdt (M : Impl X T) : Rdt (Seq X T) (Op T) := ⟨new, apply M, merge⟩

end Seq
end Verif.Crdt
