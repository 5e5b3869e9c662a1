import Verif.Lsp.LineIndex

/-!
# Model of the server's copy of the open documents

`apply_content_change` (`crates/logicaffeine_lsp/src/document.rs` 69–82) and `Scheduler`
(`crates/logicaffeine_lsp/src/scheduler.rs`).  A concurrent map is a function from names to optional
entries; each of its operations is one step.
-/
namespace Verif.Lsp

/-- `TextDocumentContentChangeEvent`: a range (start and end, as line and character) and a text. -/
structure Change where
  range : Option ((Nat × Nat) × (Nat × Nat))
  text : List Char

/-- `String::replace_range(a..b, new)`, which panics when `b < a` or inside a character. -/
def replaceRange (cs : List Char) (a b : Nat) (new : List Char) : Option (List Char) :=
  if b < a then none
  else (takeBytes a cs).bind fun pre => (dropBytes b cs).map fun suf => pre ++ new ++ suf

/-- `apply_content_change` (`document.rs` 69–82). -/
def applyChange (cs : List Char) (c : Change) : Option (List Char) :=
  match c.range with
  | none => some c.text
  | some (start, stop) =>
    (offset cs start.1 start.2).bind fun a =>
      (offset cs stop.1 stop.2).bind fun b => replaceRange cs a b c.text

/-- The loop of `apply_changes` (`scheduler.rs` 57–59). -/
def applyAll (cs : List Char) : List Change → Option (List Char)
  | [] => some cs
  | c :: rest => (applyChange cs c).bind fun cs' => applyAll cs' rest

/-- `DocEntry` (`scheduler.rs` 26–30). -/
structure Entry where
  generation : Nat
  text : List Char
  version : Int

/-- `Scheduler` (`scheduler.rs` 22–24): documents are named by numbers. -/
abbrev Scheduler := Nat → Option Entry

/-- `Scheduler::open` (`scheduler.rs` 40–48). -/
def Scheduler.open (s : Scheduler) (uri : Nat) (text : List Char) (version : Int) : Scheduler :=
  fun u => if u = uri then some ⟨0, text, version⟩ else s u

/-- `Scheduler::apply_changes` (`scheduler.rs` 52–63): the new state and the new generation, `none`
for a panic. -/
def Scheduler.applyChanges (s : Scheduler) (uri : Nat) (changes : List Change) (version : Int) :
    Option (Scheduler × Option Nat) :=
  match s uri with
  | none => some (s, none)
  | some e =>
    (applyAll e.text changes).map fun text =>
      (fun u => if u = uri then some ⟨e.generation + 1, text, version⟩ else s u,
        some (e.generation + 1))

/-- `Scheduler::current_if` (`scheduler.rs` 66–72). -/
def Scheduler.currentIf (s : Scheduler) (uri generation : Nat) : Option (List Char × Int) :=
  match s uri with
  | none => none
  | some e => if e.generation ≠ generation then none else some (e.text, e.version)

/-- `Scheduler::current_text` (`scheduler.rs` 76–79). -/
def Scheduler.currentText (s : Scheduler) (uri : Nat) : Option (List Char × Int) :=
  (s uri).map fun e => (e.text, e.version)

/-- `Scheduler::is_current` (`scheduler.rs` 81–86). -/
def Scheduler.isCurrent (s : Scheduler) (uri generation : Nat) : Bool :=
  match s uri with
  | none => false
  | some e => e.generation == generation

/-- `Scheduler::close` (`scheduler.rs` 93–95). -/
def Scheduler.close (s : Scheduler) (uri : Nat) : Scheduler :=
  fun u => if u = uri then none else s u

/-- What the client tells the server. -/
inductive Notice where
  | opened (uri : Nat) (text : List Char) (version : Int)
  | changed (uri : Nat) (changes : List Change) (version : Int)
  | closed (uri : Nat)

/-- The parts of `did_open`, `did_change` and `did_close` that keep the text (`server.rs` 328–333,
348–357, 381). -/
def Scheduler.notice (s : Scheduler) : Notice → Option Scheduler
  | .opened uri text version => some (s.open uri text version)
  | .changed uri changes version => (s.applyChanges uri changes version).map (·.1)
  | .closed uri => some (s.close uri)

/-- A history of notices, from a server with no documents; `none` if one of them panics. -/
def Scheduler.run (s : Scheduler) : List Notice → Option Scheduler
  | [] => some s
  | n :: ns => (s.notice n).bind fun s' => s'.run ns

/-- `Scheduler::new`. -/
def Scheduler.empty : Scheduler := fun _ => none

end Verif.Lsp
