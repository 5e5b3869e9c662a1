import Verif.Lsp.Document

/-!
# Model of the analysis and save-check tasks of the language server

`did_open`, `did_change`, `did_save`, `did_close` and `analyze_and_publish`
(`crates/logicaffeine_lsp/src/server.rs` 58–93, 227–283, 327–390), the state they share
(`scheduler.rs`, `state.rs` 42–46, 67–70, `flycheck.rs` 59–119) and the tasks they spawn.

Simplifications.  One document: every map is keyed by the document's name.  The texts of changes are
given as their result (C104).  What an analysis or check computes is represented by the text it was
computed from.  A client's notice is one step: the handlers run one after another up to their first
`await`, which comes after the reads and writes modelled here.  The steps of spawned tasks interleave
freely with each other and with notices; `spawn_blocking` and the debounce take any time.  The
setting that turns the save check off is not modelled.
-/
namespace Verif.Lsp

/-- The findings of a save check: the text checked, and the text whose errors hide findings
(`flycheck.rs` 124–161). -/
structure Found where
  text : List Char
  against : Option (List Char)
deriving DecidableEq, Repr

/-- What `publish_diagnostics` sends: the version, the text that was analysed, the findings. -/
structure Shown where
  version : Option Int
  analysed : Option (List Char)
  found : Option Found
deriving DecidableEq, Repr

/-- The point a task has reached. -/
inductive Task where
  /-- before `current_if` (`server.rs` 369–372) -/
  | sleep (g : Nat)
  /-- in `spawn_blocking`, before `is_current` (`server.rs` 69–84) -/
  | analyse (g : Nat) (text : List Char) (version : Int)
  /-- before `install_snapshot` (`server.rs` 87) -/
  | install (text : List Char) (version : Int)
  /-- before `diagnostics_for` (`server.rs` 88–89) -/
  | merge (text : List Char) (version : Int)
  /-- before `publish_diagnostics` (`server.rs` 90–92, 280–282) -/
  | publish (s : Shown)
  /-- in the save check, before `snapshot` (`server.rs` 258–271) -/
  | check (g : Nat) (text : List Char) (version : Int)
  /-- before `is_current` in `complete` (`flycheck.rs` 112–114) -/
  | complete (g : Nat) (text : List Char) (version : Int) (against : Option (List Char))
  /-- before `results.insert` (`flycheck.rs` 115–117) -/
  | store (text : List Char) (version : Int) (against : Option (List Char))
deriving DecidableEq, Repr

/-- The server's state for one document. -/
structure Doc where
  /-- `Scheduler::entries` -/
  entry : Option Entry
  /-- `ServerState::documents`: text and version -/
  snap : Option (List Char × Int)
  /-- `Flycheck::generations` -/
  saveGen : Option Nat
  /-- `Flycheck::results` -/
  found : Option Found
  /-- what the client was sent last; `none` also after an empty list on close -/
  shown : Option Shown
  /-- the tasks in flight, by name -/
  tasks : List (Nat × Task)
  next : Nat

/-- A server that has not seen the document. -/
def Doc.init : Doc := ⟨none, none, none, none, none, [], 0⟩

/-- A notice from the client, a step of a task, or a task that ends without result (an analysis that
panics, `server.rs` 75–81; no toolchain, `server.rs` 266). -/
inductive Ev where
  | opened (text : List Char) (version : Int)
  | changed (text : List Char) (version : Int)
  | saved
  | closed
  | run (id : Nat)
  | fail (id : Nat)
deriving DecidableEq, Repr

/-- `Scheduler::is_current`. -/
def Doc.isCurrent (d : Doc) (g : Nat) : Bool :=
  match d.entry with
  | none => false
  | some e => e.generation == g

/-- Start a task. -/
def Doc.spawn (d : Doc) (t : Task) : Doc :=
  { d with tasks := (d.next, t) :: d.tasks, next := d.next + 1 }

/-- End a task. -/
def Doc.drop (d : Doc) (id : Nat) : Doc := { d with tasks := d.tasks.filter (·.1 ≠ id) }

/-- Move a task on. -/
def Doc.move (d : Doc) (id : Nat) (t : Task) : Doc :=
  { d with tasks := (id, t) :: d.tasks.filter (·.1 ≠ id) }

/-- One step of a task. -/
def Doc.runTask (d : Doc) (id : Nat) : Task → Doc
  | .sleep g =>
    match d.entry with
    | none => d.drop id
    | some e => if e.generation == g then d.move id (.analyse g e.text e.version) else d.drop id
  | .analyse g text version =>
    if d.isCurrent g then d.move id (.install text version) else d.drop id
  | .install text version => { d.move id (.merge text version) with snap := some (text, version) }
  | .merge text version => d.move id (.publish ⟨some version, some text, d.found⟩)
  | .publish s => { d.drop id with shown := some s }
  | .check g text version => d.move id (.complete g text version (d.snap.map (·.1)))
  | .complete g text version against =>
    if d.saveGen == some g then d.move id (.store text version against) else d.drop id
  | .store text version against =>
    { d.move id (.publish ⟨some version, against, some ⟨text, against⟩⟩) with
      found := some ⟨text, against⟩ }

/-- One event. -/
def Doc.step (d : Doc) : Ev → Doc
  | .opened text version =>
    -- `did_open`, `server.rs` 327–346
    { d with entry := some ⟨0, text, version⟩ }.spawn (.analyse 0 text version)
  | .changed text version =>
    -- `did_change`, `server.rs` 348–378; `Flycheck::clear`, `flycheck.rs` 77–83
    match d.entry with
    | none => d
    | some e =>
      { d with
        entry := some ⟨e.generation + 1, text, version⟩
        found := none
        saveGen := d.saveGen.map (· + 1) }.spawn (.sleep (e.generation + 1))
  | .saved =>
    -- `did_save`, `server.rs` 247–256; `Flycheck::begin_save`, `flycheck.rs` 60–66
    match d.entry with
    | none => d
    | some e =>
      let g := d.saveGen.getD 0 + 1
      { d with saveGen := some g }.spawn (.check g e.text e.version)
  | .closed =>
    -- `did_close`, `server.rs` 380–388; `Flycheck::forget`, `flycheck.rs` 85–88
    { d with entry := none, snap := none, saveGen := none, found := none, shown := none }
  | .run id =>
    match d.tasks.find? (·.1 == id) with
    | none => d
    | some t => d.runTask id t.2
  | .fail id => d.drop id

/-- A history. -/
def Doc.after (d : Doc) : List Ev → Doc
  | [] => d
  | e :: es => (d.step e).after es

end Verif.Lsp
