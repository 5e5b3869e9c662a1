import Verif.Lsp.ServerInv

/-!
# C105: once the server is at rest, the client has the diagnostics of the text it holds

Specification: a document is at rest when none of its tasks is in flight.
-/
namespace Verif.Props
open Verif.Lsp

/-- At rest, the server knows and the client was shown what belongs to the current text: the analysis
of that text with its version, and the findings of a save check of that text or none; of a closed
document nothing. -/
def Settled (d : Doc) : Prop :=
  match d.entry with
  | none => d.snap = none ∧ d.found = none ∧ d.shown = none
  | some e =>
    d.snap = some (e.text, e.version) ∧
    (∀ f, d.found = some f → f.text = e.text) ∧
    d.shown = some ⟨some e.version, some e.text, d.found⟩

/-- Findings are hidden only by errors of the text they were found in. -/
def HiddenRightly (d : Doc) : Prop := ∀ f, d.found = some f → f.against = some f.text

/-- The client opens only what is not open, and no task fails. -/
def Orderly (d : Doc) : List Ev → Prop
  | [] => True
  | e :: es => (match e with
    | .opened .. => d.entry = none
    | .fail _ => False
    | _ => True) ∧ Orderly (d.step e) es

/-- The property in full: whatever the history and however tasks interleave. -/
def ServerSettles : Prop :=
  ∀ es, Orderly Doc.init es → (Doc.init.after es).tasks = [] →
    Settled (Doc.init.after es) ∧ HiddenRightly (Doc.init.after es)

/-- **C105 (partial).**  After every history of opening, changing, saving and closing a document, in
every order in which the tasks run, at rest the document is settled, provided that a task past its
check is not interrupted, that a document is not opened again while an analysis or save check begun
before is still running, and that no analysis panics.  Missing: these three provisos
(`C105_reopen_fails`, `C105_late_install_fails`, `C105_closed_fails`, `C105_reopen_save_fails`,
`C105_lost_finding_fails`) and the right hiding of findings (`C105_hidden_fails`). -/
theorem C105_settled_partial (es : List Ev) (hc : calm Doc.init es = true)
    (hr : (Doc.init.after es).tasks = []) : Settled (Doc.init.after es) := by
  have h := Inv.init.after es hc
  generalize Doc.init.after es = d at h hr
  unfold Settled
  cases he : d.entry with
  | none =>
    have := h.closed he
    exact ⟨this.1, this.2.2.2, this.2.1⟩
  | some e =>
    refine ⟨?_, ?_, ?_⟩
    · rcases h.progress e he with ⟨k, h⟩ | ⟨k, t, v, h⟩ | ⟨k, t, v, h⟩ | ⟨k, t, v, h⟩ | ⟨hs, _⟩
      all_goals first | (rw [hr] at h; cases h; done) | exact hs
    · intro f hf
      obtain ⟨e', he', ht⟩ := h.found f hf
      rw [he] at he'
      cases he'; exact ht
    · rcases h.progress e he with ⟨k, h⟩ | ⟨k, t, v, h⟩ | ⟨k, t, v, h⟩ | ⟨k, t, v, h⟩ | ⟨_, ⟨k, s, h⟩ | h⟩
      all_goals first | (rw [hr] at h; cases h; done) | exact h

/-- **C105 (partial), the findings of the last save are there.**  In such a history, if the last
notice was a save of an open document and the check did not fail, at rest there are findings, for the
current text. -/
theorem C105_saved_partial (es : List Ev) (hc : calm Doc.init es = true) (hs : justSaved false es = true)
    (hr : (Doc.init.after es).tasks = []) (e : Entry) (he : (Doc.init.after es).entry = some e) :
    ∃ f, (Doc.init.after es).found = some f ∧ f.text = e.text := by
  have h := Inv.init.after es hc
  rw [hs] at h
  generalize Doc.init.after es = d at h hr he
  have hf : d.found.isSome = true := by
    rcases h.saving rfl (by simp [he]) with h | ⟨g, _, ⟨k, t, v, h⟩ | ⟨k, t, v, i, h⟩ | ⟨k, t, v, i, h⟩⟩
    all_goals first | (rw [hr] at h; cases h; done) | exact h
  obtain ⟨f, hf⟩ := Option.isSome_iff_exists.1 hf
  obtain ⟨e', he', ht⟩ := h.found f hf
  rw [he] at he'
  cases he'
  exact ⟨f, hf, ht⟩

/-- **C105 (partial), never for another text.**  In such a history, at every moment, findings kept
are for the current text. -/
theorem C105_found_partial (es : List Ev) (hc : calm Doc.init es = true) (f : Found)
    (hf : (Doc.init.after es).found = some f) :
    ∃ e, (Doc.init.after es).entry = some e ∧ f.text = e.text :=
  (Inv.init.after es hc).found f hf

/-- How many steps a task may still take. -/
def weight : Task → Nat
  | .sleep _ => 5
  | .analyse .. => 4
  | .install .. => 3
  | .merge .. => 2
  | .publish _ => 1
  | .check .. => 4
  | .complete .. => 3
  | .store .. => 2

def work (d : Doc) : Nat := (d.tasks.map fun p => weight p.2).sum

theorem work_filter (l : List (Nat × Task)) (p : Nat × Task → Bool) :
    ((l.filter p).map fun p => weight p.2).sum ≤ (l.map fun p => weight p.2).sum := by
  induction l with
  | nil => simp
  | cons a l ih =>
    simp only [List.filter_cons]
    split <;> simp only [List.map_cons, List.sum_cons] <;> omega

theorem work_filter_mem (l : List (Nat × Task)) (k : Nat) (t : Task) (hm : (k, t) ∈ l) :
    ((l.filter (·.1 ≠ k)).map fun p => weight p.2).sum + weight t ≤ (l.map fun p => weight p.2).sum := by
  induction l with
  | nil => cases hm
  | cons a l ih =>
    rcases List.mem_cons.1 hm with rfl | hm
    · have := work_filter l (·.1 ≠ k)
      rw [List.filter_cons_of_neg (by simp)]
      simp only [List.map_cons, List.sum_cons]; omega
    · have := ih hm
      simp only [List.filter_cons]
      split <;> simp only [List.map_cons, List.sum_cons] <;> omega

/-- **C105, rest comes.**  Each step a task takes, in whatever state and order, leaves less to do; so
without new notices the server is at rest after at most five steps per task. -/
theorem C105_rest_comes (d : Doc) (k : Nat) (t : Task) (hm : (k, t) ∈ d.tasks) :
    work (d.step (.run k)) < work d ∧ work d ≤ 5 * d.tasks.length := by
  constructor
  · simp only [Doc.step]
    cases hf : d.tasks.find? (·.1 == k) with
    | none => exact absurd (List.find?_eq_none.1 hf _ hm) (by simp)
    | some p =>
      obtain ⟨k', u⟩ := p
      have hm' := List.mem_of_find?_eq_some hf
      have hk := List.find?_some hf
      simp only [beq_iff_eq] at hk
      subst hk
      have hw := work_filter_mem d.tasks k' u hm'
      cases u
      case sleep g =>
        simp only [Doc.runTask]
        split
        · simp only [work, Doc.drop]
          simp only [show ∀ g, weight (.sleep g) = 5 from fun _ => rfl] at hw
          omega
        · split <;> simp only [work, Doc.drop, Doc.move, List.map_cons, List.sum_cons] <;>
          simp only [show ∀ g, weight (.sleep g) = 5 from fun _ => rfl,
            show ∀ g t v, weight (.analyse g t v) = 4 from fun _ _ _ => rfl,
            show ∀ t v, weight (.install t v) = 3 from fun _ _ => rfl,
            show ∀ g t v i, weight (.complete g t v i) = 3 from fun _ _ _ _ => rfl,
            show ∀ t v i, weight (.store t v i) = 2 from fun _ _ _ => rfl] at hw ⊢ <;> omega
      case analyse g t v =>
        simp only [Doc.runTask]
        split <;> simp only [work, Doc.drop, Doc.move, List.map_cons, List.sum_cons] <;>
          simp only [show ∀ g, weight (.sleep g) = 5 from fun _ => rfl,
            show ∀ g t v, weight (.analyse g t v) = 4 from fun _ _ _ => rfl,
            show ∀ t v, weight (.install t v) = 3 from fun _ _ => rfl,
            show ∀ g t v i, weight (.complete g t v i) = 3 from fun _ _ _ _ => rfl,
            show ∀ t v i, weight (.store t v i) = 2 from fun _ _ _ => rfl] at hw ⊢ <;> omega
      case complete g t v i =>
        simp only [Doc.runTask]
        split <;> simp only [work, Doc.drop, Doc.move, List.map_cons, List.sum_cons] <;>
          simp only [show ∀ g, weight (.sleep g) = 5 from fun _ => rfl,
            show ∀ g t v, weight (.analyse g t v) = 4 from fun _ _ _ => rfl,
            show ∀ t v, weight (.install t v) = 3 from fun _ _ => rfl,
            show ∀ g t v i, weight (.complete g t v i) = 3 from fun _ _ _ _ => rfl,
            show ∀ t v i, weight (.store t v i) = 2 from fun _ _ _ => rfl] at hw ⊢ <;> omega
      all_goals
        simp only [Doc.runTask, work, Doc.drop, Doc.move, List.map_cons, List.sum_cons]
        try simp only [show ∀ t v, weight (.install t v) = 3 from fun _ _ => rfl,
            show ∀ t v, weight (.merge t v) = 2 from fun _ _ => rfl,
            show ∀ s, weight (.publish s) = 1 from fun _ => rfl,
            show ∀ g t v, weight (.check g t v) = 4 from fun _ _ _ => rfl,
            show ∀ g t v i, weight (.complete g t v i) = 3 from fun _ _ _ _ => rfl,
            show ∀ t v i, weight (.store t v i) = 2 from fun _ _ _ => rfl] at hw ⊢
        omega
  · unfold work
    generalize d.tasks = l
    induction l with
    | nil => simp
    | cons a l ih =>
      simp only [List.map_cons, List.sum_cons, List.length_cons]
      have : weight a.2 ≤ 5 := by cases a.2 <;> simp [weight]
      omega

/-! ## A concrete case: open, change twice while the first analysis runs, save, and let all finish -/

def sampleDay : List Ev :=
  [.opened ['a'] 1, .changed ['b'] 2, .run 0, .changed ['c'] 3, .saved,
   .run 1, .run 2, .run 2, .run 2, .run 2, .run 2, .run 3, .run 3, .run 3, .run 3]

example : calm Doc.init sampleDay = true ∧ justSaved false sampleDay = true ∧
    (Doc.init.after sampleDay).tasks = [] ∧
    (Doc.init.after sampleDay).shown = some ⟨some 3, some ['c'], some ⟨['c'], some ['c']⟩⟩ := by
  decide +kernel

/-! ## Where it fails -/

/-- **C105 fails.**  Generations start again at 0 when a document is opened again: an analysis of the
text before the document was closed passes for current, and is what the server keeps and shows. -/
def reopening : List Ev :=
  [.opened ['a'] 1, .closed, .opened ['b'] 1, .run 1, .run 1, .run 1, .run 1, .run 0, .run 0, .run 0, .run 0]

theorem C105_reopen_fails : Orderly Doc.init reopening ∧ (Doc.init.after reopening).tasks = [] ∧
    (Doc.init.after reopening).entry.map (·.text) = some ['b'] ∧
    (Doc.init.after reopening).snap = some (['a'], 1) ∧
    (Doc.init.after reopening).shown = some ⟨some 1, some ['a'], none⟩ := by
  refine ⟨?_, by decide +kernel, by decide +kernel, by decide +kernel, by decide +kernel⟩
  simp [reopening, Orderly, Doc.init, Doc.step, Doc.spawn, Doc.runTask, Doc.isCurrent, Doc.drop,
    Doc.move]

/-- **C105 fails.**  The check that an analysis is current and the installing of its result are two
steps: a result that was current when checked can be installed after a newer one. -/
def lateInstall : List Ev :=
  [.opened ['a'] 1, .run 0, .changed ['b'] 2, .run 1, .run 1, .run 1, .run 1, .run 1, .run 0, .run 0, .run 0]

theorem C105_late_install_fails : Orderly Doc.init lateInstall ∧
    (Doc.init.after lateInstall).tasks = [] ∧
    (Doc.init.after lateInstall).entry.map (·.text) = some ['b'] ∧
    (Doc.init.after lateInstall).snap = some (['a'], 1) := by
  refine ⟨?_, by decide +kernel, by decide +kernel, by decide +kernel⟩
  simp [lateInstall, Orderly, Doc.init, Doc.step, Doc.spawn, Doc.runTask, Doc.isCurrent, Doc.drop,
    Doc.move]

/-- **C105 fails.**  In the same way a closed document keeps a snapshot, and its diagnostics are shown
after they were cleared. -/
def lateClose : List Ev := [.opened ['a'] 1, .run 0, .closed, .run 0, .run 0, .run 0]

theorem C105_closed_fails : Orderly Doc.init lateClose ∧ (Doc.init.after lateClose).tasks = [] ∧
    (Doc.init.after lateClose).entry.isNone = true ∧
    (Doc.init.after lateClose).snap = some (['a'], 1) ∧
    (Doc.init.after lateClose).shown = some ⟨some 1, some ['a'], none⟩ := by
  refine ⟨?_, by decide +kernel, by decide +kernel, by decide +kernel, by decide +kernel⟩
  simp [lateClose, Orderly, Doc.init, Doc.step, Doc.spawn, Doc.runTask, Doc.isCurrent, Doc.drop,
    Doc.move]

/-- **C105 fails.**  The numbers of save checks start again too: findings for the text before the
document was closed replace those for the text saved since. -/
def reopenSave : List Ev :=
  [.opened ['a'] 1, .run 0, .run 0, .run 0, .run 0, .saved, .closed, .opened ['b'] 1,
   .run 2, .run 2, .run 2, .run 2, .saved, .run 3, .run 3, .run 3, .run 3, .run 1, .run 1, .run 1, .run 1]

theorem C105_reopen_save_fails : Orderly Doc.init reopenSave ∧ (Doc.init.after reopenSave).tasks = [] ∧
    (Doc.init.after reopenSave).entry.map (·.text) = some ['b'] ∧
    (Doc.init.after reopenSave).found.map (·.text) = some ['a'] := by
  refine ⟨?_, by decide +kernel, by decide +kernel, by decide +kernel⟩
  simp [reopenSave, Orderly, Doc.init, Doc.step, Doc.spawn, Doc.runTask, Doc.isCurrent, Doc.drop,
    Doc.move]

/-- **C105 fails.**  An analysis that has read the findings before a save check stored new ones, and
publishes after it, takes them from the client's view; nothing publishes them again. -/
def lostFinding : List Ev :=
  [.opened ['a'] 1, .saved, .run 0, .run 0, .run 0, .run 1, .run 1, .run 1, .run 1, .run 0]

theorem C105_lost_finding_fails : Orderly Doc.init lostFinding ∧
    (Doc.init.after lostFinding).tasks = [] ∧
    (Doc.init.after lostFinding).found = some ⟨['a'], some ['a']⟩ ∧
    (Doc.init.after lostFinding).shown = some ⟨some 1, some ['a'], none⟩ := by
  refine ⟨?_, by decide +kernel, by decide +kernel, by decide +kernel⟩
  simp [lostFinding, Orderly, Doc.init, Doc.step, Doc.spawn, Doc.runTask, Doc.isCurrent, Doc.drop,
    Doc.move]

/-- **C105 fails, also without interruptions.**  A save check that ends before the text it checked was
analysed hides findings by the errors of the text before, and keeps them hidden. -/
def hidingRun : List Ev :=
  [.opened ['a'] 1, .run 0, .run 0, .run 0, .run 0, .changed ['b'] 2, .saved,
   .run 2, .run 2, .run 2, .run 2, .run 1, .run 1, .run 1, .run 1, .run 1]

theorem C105_hidden_fails : calm Doc.init hidingRun = true ∧ (Doc.init.after hidingRun).tasks = [] ∧
    (Doc.init.after hidingRun).entry.map (·.text) = some ['b'] ∧
    (Doc.init.after hidingRun).found = some ⟨['b'], some ['a']⟩ := by
  decide +kernel

/-- The property in full is false. -/
theorem C105_full_fails : ¬ ServerSettles := by
  intro h
  obtain ⟨h1, h2, _, h4, _⟩ := C105_closed_fails
  obtain ⟨hs, _⟩ := h lateClose h1 h2
  unfold Settled at hs
  rw [show (Doc.init.after lateClose).entry = none from by
    simpa using C105_closed_fails.2.2.1] at hs
  rw [hs.1] at h4
  exact absurd h4 (by simp)

end Verif.Props
