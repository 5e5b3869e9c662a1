import Verif.Lsp.ServerCalm

/-!
# The invariant is kept by every event of a history without interruptions
-/
namespace Verif.Lsp

@[simp] theorem spawn_entry (d : Doc) (t) : (d.spawn t).entry = d.entry := rfl
@[simp] theorem spawn_snap (d : Doc) (t) : (d.spawn t).snap = d.snap := rfl
@[simp] theorem spawn_saveGen (d : Doc) (t) : (d.spawn t).saveGen = d.saveGen := rfl
@[simp] theorem spawn_found (d : Doc) (t) : (d.spawn t).found = d.found := rfl
@[simp] theorem spawn_shown (d : Doc) (t) : (d.spawn t).shown = d.shown := rfl
@[simp] theorem spawn_next (d : Doc) (t) : (d.spawn t).next = d.next + 1 := rfl
@[simp] theorem drop_entry (d : Doc) (k) : (d.drop k).entry = d.entry := rfl
@[simp] theorem drop_snap (d : Doc) (k) : (d.drop k).snap = d.snap := rfl
@[simp] theorem drop_saveGen (d : Doc) (k) : (d.drop k).saveGen = d.saveGen := rfl
@[simp] theorem drop_found (d : Doc) (k) : (d.drop k).found = d.found := rfl
@[simp] theorem drop_shown (d : Doc) (k) : (d.drop k).shown = d.shown := rfl
@[simp] theorem drop_next (d : Doc) (k) : (d.drop k).next = d.next := rfl
@[simp] theorem move_entry (d : Doc) (k t) : (d.move k t).entry = d.entry := rfl
@[simp] theorem move_snap (d : Doc) (k t) : (d.move k t).snap = d.snap := rfl
@[simp] theorem move_saveGen (d : Doc) (k t) : (d.move k t).saveGen = d.saveGen := rfl
@[simp] theorem move_found (d : Doc) (k t) : (d.move k t).found = d.found := rfl
@[simp] theorem move_shown (d : Doc) (k t) : (d.move k t).shown = d.shown := rfl
@[simp] theorem move_next (d : Doc) (k t) : (d.move k t).next = d.next := rfl

theorem calm_late {d : Doc} {e : Ev} (hc : calmEv d e) (he : ∀ k, e ≠ .run k) :
    ∀ k t, (k, t) ∈ d.tasks → t.late = false := by
  intro k t hm
  cases hl : t.late with
  | false => rfl
  | true => exact absurd (hc.1 k t hm hl) (he k)

theorem Inv.opened {d : Doc} {b : Bool} (h : Inv d b) (text : List Char) (v : Int)
    (hc : calmEv d (.opened text v)) : Inv (d.step (.opened text v)) false := by
  have hlate := calm_late hc (by simp)
  obtain ⟨h1, h2, h3⟩ := hc
  have hn : d.entry = none := by simpa using h2
  have hcl := h.closed hn
  obtain ⟨fresh, uniq, one, closed, analyse, check, nocheck, install, merge, complete, store, publish,
    found, progress, saving⟩ := h
  constructor <;> simp only [Doc.step, mem_spawn, spawn_entry, spawn_snap, spawn_saveGen, spawn_found,
    spawn_shown, spawn_next]
  case progress =>
    intro e he
    cases he
    exact .inr (.inl ⟨_, text, v, .inl ⟨rfl, rfl⟩⟩)
  all_goals grind [Task.late, Task.holds]

theorem Inv.changed {d : Doc} {b : Bool} (h : Inv d b) (text : List Char) (v : Int)
    (hc : calmEv d (.changed text v)) : Inv (d.step (.changed text v)) false := by
  have hlate := calm_late hc (by simp)
  obtain ⟨fresh, uniq, one, closed, analyse, check, nocheck, install, merge, complete, store, publish,
    found, progress, saving⟩ := h
  cases he : d.entry with
  | none =>
    simp only [Doc.step, he]
    constructor <;> grind
  | some e =>
    constructor <;> simp only [Doc.step, he, mem_spawn, spawn_entry, spawn_snap, spawn_saveGen,
      spawn_found, spawn_shown, spawn_next]
    case progress =>
      intro e he
      cases he
      exact .inl ⟨_, .inl ⟨rfl, rfl⟩⟩
    case check =>
      intro k g t v' hm h hh
      obtain ⟨h', hg, rfl⟩ := Option.map_eq_some_iff.1 hh
      have := check k g t v' (by simpa using hm) h' hg
      exact ⟨by omega, fun hh => by omega⟩
    case nocheck =>
      intro hg _ k g t v' hm
      exact nocheck (by simpa using hg) (by simp [he]) k g t v' (by simpa using hm)
    all_goals grind [Task.late]

theorem Inv.saved {d : Doc} {b : Bool} (h : Inv d b)
    (hc : calmEv d .saved) : Inv (d.step .saved) true := by
  have hlate := calm_late hc (by simp)
  obtain ⟨fresh, uniq, one, closed, analyse, check, nocheck, install, merge, complete, store, publish,
    found, progress, saving⟩ := h
  cases he : d.entry with
  | none =>
    simp only [Doc.step, he]
    constructor <;> grind
  | some e =>
    constructor <;> simp only [Doc.step, he, mem_spawn, spawn_entry, spawn_snap, spawn_saveGen,
      spawn_found, spawn_shown, spawn_next]
    case progress =>
      intro e' he'
      rw [← he] at he'
      rcases progress e' he' with ⟨k, h⟩ | ⟨k, t, v, h⟩ | ⟨k, t, v, h⟩ | ⟨k, t, v, h⟩ | ⟨hs, ⟨k, s, h⟩ | h⟩
      · exact .inl ⟨k, .inr h⟩
      · exact .inr (.inl ⟨k, t, v, .inr h⟩)
      · exact .inr (.inr (.inl ⟨k, t, v, .inr h⟩))
      · exact .inr (.inr (.inr (.inl ⟨k, t, v, .inr h⟩)))
      · exact .inr (.inr (.inr (.inr ⟨hs, .inl ⟨k, s, .inr h⟩⟩)))
      · exact .inr (.inr (.inr (.inr ⟨hs, .inr h⟩)))
    case saving =>
      intro _ _
      exact .inr ⟨_, rfl, .inl ⟨_, _, _, .inl ⟨rfl, rfl⟩⟩⟩
    case check =>
      intro k g t v hm h hh
      cases hh
      rcases hm with ⟨_, hm⟩ | hm
      · cases hm
        exact ⟨by omega, fun _ => ⟨e, by simp, rfl, rfl⟩⟩
      · cases hg : d.saveGen with
        | none => exact absurd hm (nocheck hg (by simp [he]) k g t v)
        | some h =>
          have := check k g t v hm h hg
          simp only [Option.getD_some]
          exact ⟨by omega, fun hh => by omega⟩
    all_goals grind [Task.late]

theorem Inv.closes {d : Doc} {b : Bool} (h : Inv d b)
    (hc : calmEv d .closed) : Inv (d.step .closed) false := by
  have hlate := calm_late hc (by simp)
  obtain ⟨fresh, uniq, one, closed, analyse, check, nocheck, install, merge, complete, store, publish,
    found, progress, saving⟩ := h
  constructor <;> simp only [Doc.step]
  all_goals grind [Task.late]

theorem Inv.fails {d : Doc} {b : Bool} (h : Inv d b) (id : Nat)
    (hc : calmEv d (.fail id)) : Inv (d.step (.fail id)) false := by
  have hlate := calm_late hc (by simp)
  have h2 := hc.2
  simp only at h2
  obtain ⟨fresh, uniq, one, closed, analyse, check, nocheck, install, merge, complete, store, publish,
    found, progress, saving⟩ := h
  constructor <;> simp only [Doc.step, mem_drop, drop_entry, drop_snap, drop_saveGen, drop_found,
    drop_shown, drop_next]
  case progress =>
    intro e' he'
    have key : ∀ k t, (k, t) ∈ d.tasks → t.saving = false → k ≠ id := by
      intro k t hm hs hk
      subst hk
      rw [h2 t hm] at hs
      exact absurd hs (by simp)
    rcases progress e' he' with ⟨k, h⟩ | ⟨k, t, v, h⟩ | ⟨k, t, v, h⟩ | ⟨k, t, v, h⟩ | ⟨hs, ⟨k, s, h⟩ | h⟩
    · exact .inl ⟨k, h, key _ _ h rfl⟩
    · exact .inr (.inl ⟨k, t, v, h, key _ _ h rfl⟩)
    · exact .inr (.inr (.inl ⟨k, t, v, h, key _ _ h rfl⟩))
    · exact .inr (.inr (.inr (.inl ⟨k, t, v, h, key _ _ h rfl⟩)))
    · exact .inr (.inr (.inr (.inr ⟨hs, .inl ⟨k, s, h, key _ _ h rfl⟩⟩)))
    · exact .inr (.inr (.inr (.inr ⟨hs, .inr h⟩)))
  all_goals grind [Task.late]

/-- A task other than the one that runs stays. -/
theorem Inv.progress_other {d : Doc} {b : Bool} (h : Inv d b) (id : Nat) (u : Task)
    (hu : (id, u) ∈ d.tasks) (e : Entry) (he : d.entry = some e) :
    (u = .sleep e.generation ∨ (∃ t v, u = .analyse e.generation t v) ∨ (∃ t v, u = .install t v) ∨
      (∃ t v, u = .merge t v) ∨ (∃ s, u = .publish s) ∧ d.snap = some (e.text, e.version)) ∨
    (∃ k, (k, Task.sleep e.generation) ∈ d.tasks ∧ k ≠ id) ∨
    (∃ k t v, (k, Task.analyse e.generation t v) ∈ d.tasks ∧ k ≠ id) ∨
    (∃ k t v, (k, Task.install t v) ∈ d.tasks ∧ k ≠ id) ∨
    (∃ k t v, (k, Task.merge t v) ∈ d.tasks ∧ k ≠ id) ∨
    d.snap = some (e.text, e.version) ∧ ((∃ k s, (k, Task.publish s) ∈ d.tasks ∧ k ≠ id) ∨
      d.shown = some ⟨some e.version, some e.text, d.found⟩) := by
  have key : ∀ k t, (k, t) ∈ d.tasks → k = id → u = t := by
    intro k t hm hk; subst hk; exact h.uniq _ _ _ hu hm
  rcases h.progress e he with ⟨k, h⟩ | ⟨k, t, v, h⟩ | ⟨k, t, v, h⟩ | ⟨k, t, v, h⟩ | ⟨hs, ⟨k, s, h⟩ | h⟩
  · by_cases hk : k = id
    · exact .inl (.inl (key _ _ h hk))
    · exact .inr (.inl ⟨k, h, hk⟩)
  · by_cases hk : k = id
    · exact .inl (.inr (.inl ⟨t, v, key _ _ h hk⟩))
    · exact .inr (.inr (.inl ⟨k, t, v, h, hk⟩))
  · by_cases hk : k = id
    · exact .inl (.inr (.inr (.inl ⟨t, v, key _ _ h hk⟩)))
    · exact .inr (.inr (.inr (.inl ⟨k, t, v, h, hk⟩)))
  · by_cases hk : k = id
    · exact .inl (.inr (.inr (.inr (.inl ⟨t, v, key _ _ h hk⟩))))
    · exact .inr (.inr (.inr (.inr (.inl ⟨k, t, v, h, hk⟩))))
  · by_cases hk : k = id
    · exact .inl (.inr (.inr (.inr (.inr ⟨⟨s, key _ _ h hk⟩, hs⟩))))
    · exact .inr (.inr (.inr (.inr (.inr ⟨hs, .inl ⟨k, s, h, hk⟩⟩))))
  · exact .inr (.inr (.inr (.inr (.inr ⟨hs, .inr h⟩))))

/-- A save check other than the one that runs stays. -/
theorem Inv.saving_other {d : Doc} {b : Bool} (h : Inv d b) (id : Nat) (u : Task)
    (hu : (id, u) ∈ d.tasks) (hb : b = true) (he : d.entry.isSome = true) :
    d.found.isSome = true ∨ ∃ g, d.saveGen = some g ∧
      (((∃ t v, u = .check g t v) ∨ (∃ t v i, u = .complete g t v i) ∨ ∃ t v i, u = .store t v i) ∨
      (∃ k t v, (k, Task.check g t v) ∈ d.tasks ∧ k ≠ id) ∨
      (∃ k t v i, (k, Task.complete g t v i) ∈ d.tasks ∧ k ≠ id) ∨
      ∃ k t v i, (k, Task.store t v i) ∈ d.tasks ∧ k ≠ id) := by
  have key : ∀ k t, (k, t) ∈ d.tasks → k = id → u = t := by
    intro k t hm hk; subst hk; exact h.uniq _ _ _ hu hm
  rcases h.saving hb he with h | ⟨g, hg, ⟨k, t, v, h⟩ | ⟨k, t, v, i, h⟩ | ⟨k, t, v, i, h⟩⟩
  · exact .inl h
  · right; refine ⟨g, hg, ?_⟩
    by_cases hk : k = id
    · exact .inl (.inl ⟨t, v, key _ _ h hk⟩)
    · exact .inr (.inl ⟨k, t, v, h, hk⟩)
  · right; refine ⟨g, hg, ?_⟩
    by_cases hk : k = id
    · exact .inl (.inr (.inl ⟨t, v, i, key _ _ h hk⟩))
    · exact .inr (.inr (.inl ⟨k, t, v, i, h, hk⟩))
  · right; refine ⟨g, hg, ?_⟩
    by_cases hk : k = id
    · exact .inl (.inr (.inr ⟨t, v, i, key _ _ h hk⟩))
    · exact .inr (.inr (.inr ⟨k, t, v, i, h, hk⟩))

/-- Finishing a run: the fields one by one. -/
macro "finish_run" : tactic => `(tactic| (
  constructor <;> simp only [mem_drop, mem_move, drop_entry, drop_snap, drop_saveGen, drop_found,
    drop_shown, drop_next, move_entry, move_snap, move_saveGen, move_found, move_shown, move_next]
  all_goals try grind [Task.late]))

theorem Inv.drops {d : Doc} {b : Bool} (h : Inv d b) (id : Nat) (u : Task)
    (hu : (id, u) ∈ d.tasks)
    (np : ∀ e, d.entry = some e → u ≠ .sleep e.generation ∧ (∀ t v, u ≠ .analyse e.generation t v) ∧
      (∀ t v, u ≠ .install t v) ∧ (∀ t v, u ≠ .merge t v) ∧ ∀ s, u ≠ .publish s)
    (ns : ∀ g, d.saveGen = some g → (∀ t v, u ≠ .check g t v) ∧ (∀ t v i, u ≠ .complete g t v i) ∧
      ∀ t v i, u ≠ .store t v i) : Inv (d.drop id) b := by
  have po := h.progress_other id u hu
  have so := h.saving_other id u hu
  obtain ⟨fresh, uniq, one, closed, analyse, check, nocheck, install, merge, complete, store, publish,
    found, progress, saving⟩ := h
  finish_run
  case progress =>
    intro e he
    obtain ⟨n1, n2, n3, n4, n5⟩ := np e he
    rcases po e he with (h | ⟨t, v, h⟩ | ⟨t, v, h⟩ | ⟨t, v, h⟩ | ⟨⟨s, h⟩, _⟩) | h
    · exact absurd h n1
    · exact absurd h (n2 t v)
    · exact absurd h (n3 t v)
    · exact absurd h (n4 t v)
    · exact absurd h (n5 s)
    · exact h

theorem Inv.run_sleep {d : Doc} {b : Bool} (h : Inv d b) (id g : Nat)
    (hu : (id, Task.sleep g) ∈ d.tasks) (hc : ∀ k t, (k, t) ∈ d.tasks → t.late = true → k = id) :
    Inv (d.runTask id (.sleep g)) b := by
  cases he : d.entry with
  | none =>
    simp only [Doc.runTask, he]
    exact h.drops id _ hu (by simp [he]) (by simp)
  | some e =>
    by_cases hg : (e.generation == g) = true
    · simp only [Doc.runTask, he, hg, if_true]
      have po := h.progress_other id _ hu
      have so := h.saving_other id _ hu
      obtain ⟨fresh, uniq, one, closed, analyse, check, nocheck, install, merge, complete, store,
        publish, found, progress, saving⟩ := h
      have hfresh := fresh id _ hu
      have hg' : e.generation = g := by simpa using hg
      finish_run
      case progress =>
        intro e' he'
        rw [he] at he'
        cases he'
        exact .inr (.inl ⟨id, e.text, e.version, .inl ⟨rfl, by rw [hg']⟩⟩)
    · simp only [Doc.runTask, he]
      rw [if_neg hg]
      exact h.drops id _ hu (by simp [he]; intro h; exact hg (by simp [h])) (by simp)

theorem Inv.run_analyse {d : Doc} {b : Bool} (h : Inv d b) (id g : Nat) (text : List Char) (v : Int)
    (hu : (id, Task.analyse g text v) ∈ d.tasks)
    (hc : ∀ k t, (k, t) ∈ d.tasks → t.late = true → k = id) :
    Inv (d.runTask id (.analyse g text v)) b := by
  have ha := h.analyse id g text v hu
  by_cases hg : d.isCurrent g = true
  · simp only [Doc.runTask, hg, if_true]
    simp only [Doc.isCurrent] at hg
    cases he : d.entry with
    | none => rw [he] at hg; exact absurd hg (by simp)
    | some e =>
      rw [he] at hg
      have hge : e.generation = g := by simpa using hg
      obtain ⟨rfl, rfl⟩ := (ha e he).2 hge.symm
      have po := h.progress_other id _ hu
      have so := h.saving_other id _ hu
      obtain ⟨fresh, uniq, one, closed, analyse, check, nocheck, install, merge, complete, store,
        publish, found, progress, saving⟩ := h
      have hfresh := fresh id _ hu
      finish_run
  · simp only [Doc.runTask]
    rw [if_neg hg]
    simp only [Doc.isCurrent] at hg
    refine h.drops id _ hu ?_ (by simp)
    intro e he
    rw [he] at hg
    simp only [beq_iff_eq] at hg
    simp
    exact fun h => absurd h.symm hg

theorem Inv.run_install {d : Doc} {b : Bool} (h : Inv d b) (id : Nat) (text : List Char) (v : Int)
    (hu : (id, Task.install text v) ∈ d.tasks)
    (hc : ∀ k t, (k, t) ∈ d.tasks → t.late = true → k = id) :
    Inv (d.runTask id (.install text v)) b := by
  obtain ⟨e, he, rfl, rfl⟩ := h.install id text v hu
  have po := h.progress_other id _ hu
  have so := h.saving_other id _ hu
  obtain ⟨fresh, uniq, one, closed, analyse, check, nocheck, install, merge, complete, store, publish,
    found, progress, saving⟩ := h
  have hfresh := fresh id _ hu
  simp only [Doc.runTask]
  finish_run

theorem Inv.run_merge {d : Doc} {b : Bool} (h : Inv d b) (id : Nat) (text : List Char) (v : Int)
    (hu : (id, Task.merge text v) ∈ d.tasks)
    (hc : ∀ k t, (k, t) ∈ d.tasks → t.late = true → k = id) :
    Inv (d.runTask id (.merge text v)) b := by
  obtain ⟨⟨e, he, rfl, rfl⟩, hs⟩ := h.merge id text v hu
  have po := h.progress_other id _ hu
  have so := h.saving_other id _ hu
  obtain ⟨fresh, uniq, one, closed, analyse, check, nocheck, install, merge, complete, store, publish,
    found, progress, saving⟩ := h
  have hfresh := fresh id _ hu
  simp only [Doc.runTask]
  finish_run

theorem Inv.run_publish {d : Doc} {b : Bool} (h : Inv d b) (id : Nat) (s : Shown)
    (hu : (id, Task.publish s) ∈ d.tasks)
    (hc : ∀ k t, (k, t) ∈ d.tasks → t.late = true → k = id) :
    Inv (d.runTask id (.publish s)) b := by
  obtain ⟨e, he, rfl⟩ := h.publish id s hu
  have po := h.progress_other id _ hu
  have so := h.saving_other id _ hu
  obtain ⟨fresh, uniq, one, closed, analyse, check, nocheck, install, merge, complete, store, publish,
    found, progress, saving⟩ := h
  have hfresh := fresh id _ hu
  simp only [Doc.runTask]
  finish_run

theorem Inv.run_check {d : Doc} {b : Bool} (h : Inv d b) (id g : Nat) (text : List Char) (v : Int)
    (hu : (id, Task.check g text v) ∈ d.tasks)
    (hc : ∀ k t, (k, t) ∈ d.tasks → t.late = true → k = id) :
    Inv (d.runTask id (.check g text v)) b := by
  have ha := h.check id g text v hu
  have po := h.progress_other id _ hu
  have so := h.saving_other id _ hu
  obtain ⟨fresh, uniq, one, closed, analyse, check, nocheck, install, merge, complete, store, publish,
    found, progress, saving⟩ := h
  have hfresh := fresh id _ hu
  simp only [Doc.runTask]
  finish_run

theorem Inv.run_complete {d : Doc} {b : Bool} (h : Inv d b) (id g : Nat) (text : List Char) (v : Int)
    (i : Option (List Char)) (hu : (id, Task.complete g text v i) ∈ d.tasks)
    (hc : ∀ k t, (k, t) ∈ d.tasks → t.late = true → k = id) :
    Inv (d.runTask id (.complete g text v i)) b := by
  have ha := h.complete id g text v i hu
  by_cases hg : (d.saveGen == some g) = true
  · simp only [Doc.runTask, hg, if_true]
    have hg' : d.saveGen = some g := by simpa using hg
    obtain ⟨e, he, rfl, rfl⟩ := ha.2 hg'
    have po := h.progress_other id _ hu
    have so := h.saving_other id _ hu
    obtain ⟨fresh, uniq, one, closed, analyse, check, nocheck, install, merge, complete, store, publish,
      found, progress, saving⟩ := h
    have hfresh := fresh id _ hu
    finish_run
  · simp only [Doc.runTask]
    rw [if_neg hg]
    refine h.drops id _ hu (by simp) ?_
    intro g' hg'
    simp only [hg', beq_iff_eq, Option.some.injEq] at hg
    refine ⟨by simp, ?_, by simp⟩
    intro t v i hh
    cases hh
    exact hg rfl

theorem Inv.run_store {d : Doc} {b : Bool} (h : Inv d b) (id : Nat) (text : List Char) (v : Int)
    (i : Option (List Char)) (hu : (id, Task.store text v i) ∈ d.tasks)
    (hc : ∀ k t, (k, t) ∈ d.tasks → t.late = true → k = id) :
    Inv (d.runTask id (.store text v i)) b := by
  obtain ⟨hi, e, he, rfl, rfl⟩ := h.store id text v i hu
  have po := h.progress_other id _ hu
  obtain ⟨fresh, uniq, one, closed, analyse, check, nocheck, install, merge, complete, store, publish,
    found, progress, saving⟩ := h
  have hfresh := fresh id _ hu
  simp only [Doc.runTask]
  finish_run

theorem Inv.runs {d : Doc} {b : Bool} (h : Inv d b) (id : Nat) (hc : calmEv d (.run id)) :
    Inv (d.step (.run id)) b := by
  have hl : ∀ k t, (k, t) ∈ d.tasks → t.late = true → k = id := by
    intro k t hm hl
    have := hc.1 k t hm hl
    cases this; rfl
  simp only [Doc.step]
  cases hf : d.tasks.find? (·.1 == id) with
  | none => exact h
  | some p =>
    obtain ⟨k, u⟩ := p
    have hm := List.mem_of_find?_eq_some hf
    have hk := List.find?_some hf
    simp only [beq_iff_eq] at hk
    subst hk
    simp only
    cases u with
    | sleep g => exact h.run_sleep _ _ hm hl
    | analyse g t v => exact h.run_analyse _ _ _ _ hm hl
    | install t v => exact h.run_install _ _ _ hm hl
    | merge t v => exact h.run_merge _ _ _ hm hl
    | publish s => exact h.run_publish _ _ hm hl
    | check g t v => exact h.run_check _ _ _ _ hm hl
    | complete g t v i => exact h.run_complete _ _ _ _ _ hm hl
    | store t v i => exact h.run_store _ _ _ _ hm hl

theorem Inv.after : ∀ (es : List Ev) {d : Doc} {b : Bool}, Inv d b → calm d es = true →
    Inv (d.after es) (justSaved b es)
  | [], _, _, h, _ => h
  | e :: es, d, b, h, hc => by
    simp only [Doc.after, justSaved]
    simp only [calm, Bool.and_eq_true] at hc
    have hc : calmEv d e ∧ calm (d.step e) es = true := ⟨calmEv_of hc.1, hc.2⟩
    apply Inv.after es _ hc.2
    cases e with
    | opened t v => exact h.opened t v hc.1
    | changed t v => exact h.changed t v hc.1
    | saved => exact h.saved hc.1
    | closed => exact h.closes hc.1
    | run id => exact h.runs id hc.1
    | fail id => exact h.fails id hc.1

end Verif.Lsp
