import Verif.Lsp.Server

/-!
# Histories without interruptions, and the invariant they keep
-/
namespace Verif.Lsp

/-- A task that has read the shared state it will publish by: past the check that it is current, or
past the read of the snapshot. -/
def Task.late : Task → Bool
  | .sleep _ => false
  | .analyse .. => false
  | .check .. => false
  | _ => true

/-- A task that holds a text and a generation to be compared later. -/
def Task.holds : Task → Bool
  | .analyse .. => true
  | .check .. => true
  | _ => false

/-- A task of a save check that has not finished. -/
def Task.saving : Task → Bool
  | .check .. => true
  | _ => false

/-- An event that does not interrupt: while a task is late, only that task runs; a document is opened
only when it is closed and nothing analysed before is still in flight; an analysis does not panic. -/
def calmEvent (d : Doc) (e : Ev) : Bool :=
  (d.tasks.all fun p => !p.2.late || e == .run p.1) &&
  match e with
  | .opened .. => d.entry.isNone && d.tasks.all fun p => !p.2.holds
  | .fail id => d.tasks.all fun p => p.1 != id || p.2.saving
  | _ => true

/-- A history without interruptions. -/
def calm (d : Doc) : List Ev → Bool
  | [] => true
  | e :: es => calmEvent d e && calm (d.step e) es

/-- `calmEvent`, for proofs. -/
def calmEv (d : Doc) (e : Ev) : Prop :=
  (∀ k t, (k, t) ∈ d.tasks → t.late = true → e = .run k) ∧
  match e with
  | .opened .. => d.entry.isNone = true ∧ ∀ k t, (k, t) ∈ d.tasks → t.holds = false
  | .fail id => ∀ t, (id, t) ∈ d.tasks → t.saving = true
  | _ => True

theorem calmEv_of {d : Doc} {e : Ev} (h : calmEvent d e = true) : calmEv d e := by
  unfold calmEvent at h
  rw [Bool.and_eq_true, List.all_eq_true] at h
  refine ⟨fun k t hm hl => ?_, ?_⟩
  · simpa [hl] using h.1 _ hm
  · cases e with
    | opened t v =>
      have := h.2
      simp only [Bool.and_eq_true, List.all_eq_true] at this
      exact ⟨this.1, fun k t hm => by simpa using this.2 _ hm⟩
    | fail id =>
      intro t hm
      have := h.2
      simp only [List.all_eq_true] at this
      simpa using this _ hm
    | _ => trivial

/-- The last notice was a save, and no task has failed since. -/
def justSaved : Bool → List Ev → Bool
  | b, [] => b
  | b, e :: es => justSaved (match e with
    | .saved => true
    | .run _ => b
    | _ => false) es

/-- What holds throughout. -/
structure Inv (d : Doc) (saved : Bool) : Prop where
  fresh : ∀ k t, (k, t) ∈ d.tasks → k < d.next
  uniq : ∀ k t u, (k, t) ∈ d.tasks → (k, u) ∈ d.tasks → t = u
  one : ∀ j k t u, (j, t) ∈ d.tasks → (k, u) ∈ d.tasks → t.late = true → u.late = true → j = k
  closed : d.entry = none → d.snap = none ∧ d.shown = none ∧ d.saveGen = none ∧ d.found = none
  analyse : ∀ k g t v, (k, Task.analyse g t v) ∈ d.tasks → ∀ e, d.entry = some e →
    g ≤ e.generation ∧ (g = e.generation → t = e.text ∧ v = e.version)
  check : ∀ k g t v, (k, Task.check g t v) ∈ d.tasks → ∀ h, d.saveGen = some h →
    g ≤ h ∧ (g = h → ∃ e, d.entry = some e ∧ t = e.text ∧ v = e.version)
  nocheck : d.saveGen = none → d.entry.isSome = true → ∀ k g t v, (k, Task.check g t v) ∉ d.tasks
  install : ∀ k t v, (k, Task.install t v) ∈ d.tasks →
    ∃ e, d.entry = some e ∧ t = e.text ∧ v = e.version
  merge : ∀ k t v, (k, Task.merge t v) ∈ d.tasks →
    (∃ e, d.entry = some e ∧ t = e.text ∧ v = e.version) ∧ d.snap = some (t, v)
  complete : ∀ k g t v i, (k, Task.complete g t v i) ∈ d.tasks →
    i = d.snap.map (·.1) ∧
      (d.saveGen = some g → ∃ e, d.entry = some e ∧ t = e.text ∧ v = e.version)
  store : ∀ k t v i, (k, Task.store t v i) ∈ d.tasks →
    i = d.snap.map (·.1) ∧ ∃ e, d.entry = some e ∧ t = e.text ∧ v = e.version
  publish : ∀ k s, (k, Task.publish s) ∈ d.tasks →
    ∃ e, d.entry = some e ∧ s = ⟨some e.version, d.snap.map (·.1), d.found⟩
  found : ∀ f, d.found = some f → ∃ e, d.entry = some e ∧ f.text = e.text
  progress : ∀ e, d.entry = some e →
    (∃ k, (k, Task.sleep e.generation) ∈ d.tasks) ∨
    (∃ k t v, (k, Task.analyse e.generation t v) ∈ d.tasks) ∨
    (∃ k t v, (k, Task.install t v) ∈ d.tasks) ∨
    (∃ k t v, (k, Task.merge t v) ∈ d.tasks) ∨
    d.snap = some (e.text, e.version) ∧ ((∃ k s, (k, Task.publish s) ∈ d.tasks) ∨
      d.shown = some ⟨some e.version, some e.text, d.found⟩)
  saving : saved = true → d.entry.isSome = true → d.found.isSome = true ∨
    ∃ g, d.saveGen = some g ∧ ((∃ k t v, (k, Task.check g t v) ∈ d.tasks) ∨
      (∃ k t v i, (k, Task.complete g t v i) ∈ d.tasks) ∨ ∃ k t v i, (k, Task.store t v i) ∈ d.tasks)

theorem Inv.init : Inv Doc.init false := by
  constructor <;> simp [Doc.init]

theorem mem_drop {d : Doc} {id k : Nat} {t : Task} :
    (k, t) ∈ (d.drop id).tasks ↔ (k, t) ∈ d.tasks ∧ k ≠ id := by
  simp [Doc.drop]

theorem mem_move {d : Doc} {id k : Nat} {t u : Task} :
    (k, t) ∈ (d.move id u).tasks ↔ (k = id ∧ t = u) ∨ ((k, t) ∈ d.tasks ∧ k ≠ id) := by
  simp [Doc.move]

theorem mem_spawn {d : Doc} {k : Nat} {t u : Task} :
    (k, t) ∈ (d.spawn u).tasks ↔ (k = d.next ∧ t = u) ∨ (k, t) ∈ d.tasks := by
  simp [Doc.spawn]

end Verif.Lsp
