import Verif.Lsp.Document
import Verif.Props.LineIndex

/-!
# C104: the server's copy of a document is the editor's

Specification: an editor holds a text per open document.  An edit replaces the whole text, or cuts it
in three, `pre ++ mid ++ suf`, and puts a new text for the middle.  It tells the server where the
middle begins and ends: lines and characters as in C103.
-/
namespace Verif.Props
open Verif.Lsp

/-- One edit. -/
inductive Edit where
  | whole (new : List Char)
  | part (pre mid suf new : List Char)

/-- What the editor's text is after an edit; `none` if the edit is not one of this text. -/
def Edit.on (cs : List Char) : Edit → Option (List Char)
  | .whole new => some new
  | .part pre mid suf new => if cs = pre ++ mid ++ suf then some (pre ++ new ++ suf) else none

/-- The line and character of the end of a text. -/
def endOf (pre : List Char) : Nat × Nat := (pre.count '\n', ulen (lastLine pre))

/-- What the editor sends. -/
def Edit.sent : Edit → Change
  | .whole new => ⟨none, new⟩
  | .part pre mid _ new => ⟨some (endOf pre, endOf (pre ++ mid)), new⟩

/-- What happens in the editor. -/
inductive Act where
  | opens (uri : Nat) (text : List Char) (version : Int)
  | edits (uri : Nat) (edits : List Edit) (version : Int)
  | closes (uri : Nat)

def onAll (cs : List Char) : List Edit → Option (List Char)
  | [] => some cs
  | e :: es => (e.on cs).bind fun cs' => onAll cs' es

/-- The editor's documents after an act; `none` if the act is impossible. -/
def Act.on (docs : Nat → Option (List Char)) : Act → Option (Nat → Option (List Char))
  | .opens uri text _ => some fun u => if u = uri then some text else docs u
  | .edits uri es _ =>
    (docs uri).bind fun cs => (onAll cs es).map fun cs' => fun u => if u = uri then some cs' else docs u
  | .closes uri => some fun u => if u = uri then none else docs u

def actsOn (docs : Nat → Option (List Char)) : List Act → Option (Nat → Option (List Char))
  | [] => some docs
  | a :: as => (a.on docs).bind fun docs' => actsOn docs' as

def Act.sent : Act → Notice
  | .opens uri text version => .opened uri text version
  | .edits uri es version => .changed uri (es.map Edit.sent) version
  | .closes uri => .closed uri

/-- The property in full: an editor may also send any character beyond the end of a line for the end
of that line. -/
def DocumentsInStep : Prop :=
  ∀ (pre mid suf new : List Char) (start stop : Nat),
    (start = ulen (lastLine pre) ∨ (mid ++ suf).head? = some '\n' ∧ ulen (lastLine pre) ≤ start) →
    (stop = ulen (lastLine (pre ++ mid)) ∨
      suf.head? = some '\n' ∧ ulen (lastLine (pre ++ mid)) ≤ stop) →
    applyChange (pre ++ mid ++ suf)
      ⟨some ((pre.count '\n', start), ((pre ++ mid).count '\n', stop)), new⟩ = some (pre ++ new ++ suf)

/-- **C104, one edit.** -/
theorem C104_edit (cs cs' : List Char) (e : Edit) (h : e.on cs = some cs') :
    applyChange cs e.sent = some cs' := by
  cases e with
  | whole new => simpa [Edit.on, Edit.sent, applyChange] using h
  | part pre mid suf new =>
    simp only [Edit.on] at h
    split at h
    · rename_i hcs
      cases h; subst hcs
      have h1 : offset (pre ++ mid ++ suf) (endOf pre).1 (endOf pre).2 = some (blen pre) := by
        rw [List.append_assoc]; exact C103_offset pre (mid ++ suf)
      have h2 := C103_offset (pre ++ mid) suf
      simp only [applyChange, Edit.sent, h1, Option.bind_some]
      rw [show (endOf (pre ++ mid)).1 = (pre ++ mid).count '\n' from rfl,
        show (endOf (pre ++ mid)).2 = ulen (lastLine (pre ++ mid)) from rfl, h2]
      simp only [Option.bind_some, replaceRange]
      rw [if_neg (by rw [blen_append]; omega), dropBytes_append, List.append_assoc,
        takeBytes_append]
      rfl
    · exact absurd h (by simp)

theorem applyAll_sent (es : List Edit) : ∀ cs cs', onAll cs es = some cs' →
    applyAll cs (es.map Edit.sent) = some cs' := by
  induction es with
  | nil => intro cs cs' h; exact h
  | cons e es ih =>
    intro cs cs' h
    simp only [onAll, Option.bind_eq_some_iff] at h
    obtain ⟨c1, h1, h2⟩ := h
    simp only [List.map_cons, applyAll, C104_edit cs c1 e h1, Option.bind_some]
    exact ih _ _ h2

theorem notice_sent (s : Scheduler) (docs docs' : Nat → Option (List Char))
    (hs : ∀ u, (s u).map (·.text) = docs u) (a : Act) (h : a.on docs = some docs') :
    ∃ s', s.notice a.sent = some s' ∧ ∀ u, (s' u).map (·.text) = docs' u := by
  cases a with
  | opens uri text version =>
    cases h
    refine ⟨_, rfl, fun u => ?_⟩
    simp only [Scheduler.open]
    split
    · rfl
    · exact hs u
  | closes uri =>
    cases h
    refine ⟨_, rfl, fun u => ?_⟩
    simp only [Scheduler.close]
    split
    · rfl
    · exact hs u
  | edits uri es version =>
    simp only [Act.on, Option.bind_eq_some_iff, Option.map_eq_some_iff] at h
    obtain ⟨cs, h1, cs', h2, rfl⟩ := h
    have hu := hs uri
    rw [h1] at hu
    obtain ⟨e, he, rfl⟩ := Option.map_eq_some_iff.1 hu
    have := applyAll_sent es _ _ h2
    refine ⟨fun u => if u = uri then some ⟨e.generation + 1, cs', version⟩ else s u,
      by simp only [Act.sent, Scheduler.notice, Scheduler.applyChanges, he, this,
        Option.map_some], fun u => ?_⟩
    simp only
    split
    · rfl
    · exact hs u

/-- **C104 (partial), any history.**  Over every history of opening, editing and closing documents,
the server handles every notice without panic, and then holds for every document the text the editor
holds.  Missing: characters beyond the end of a line (`C104_past_end_fails`). -/
theorem C104_history_partial (acts : List Act) (docs : Nat → Option (List Char))
    (h : actsOn (fun _ => none) acts = some docs) :
    ∃ s, Scheduler.empty.run (acts.map Act.sent) = some s ∧
      ∀ u, (s.currentText u).map (·.1) = docs u := by
  have key : ∀ (acts : List Act) (s : Scheduler) (d docs : Nat → Option (List Char)),
      (∀ u, (s u).map (·.text) = d u) → actsOn d acts = some docs →
      ∃ s', s.run (acts.map Act.sent) = some s' ∧ ∀ u, (s' u).map (·.text) = docs u := by
    intro acts
    induction acts with
    | nil => intro s d docs hs h; cases h; exact ⟨s, rfl, hs⟩
    | cons a as ih =>
      intro s d docs hs h
      simp only [actsOn, Option.bind_eq_some_iff] at h
      obtain ⟨d1, h1, h2⟩ := h
      obtain ⟨s1, e1, hs1⟩ := notice_sent s d d1 hs a h1
      obtain ⟨s2, e2, hs2⟩ := ih s1 d1 docs hs1 h2
      exact ⟨s2, by simp only [List.map_cons, Scheduler.run, e1, Option.bind_some, e2], hs2⟩
  obtain ⟨s, h1, h2⟩ := key acts Scheduler.empty _ docs (fun _ => rfl) h
  refine ⟨s, h1, fun u => ?_⟩
  rw [← h2 u]
  simp only [Scheduler.currentText]
  cases s u <;> rfl

/-- **C104, versions.**  After a change the server's text goes with the version of that change, and
the generation that was current is no longer: asking for its text gives nothing. -/
theorem C104_version (s s' : Scheduler) (uri : Nat) (cs : List Change) (v : Int) (g : Nat)
    (h : s.applyChanges uri cs v = some (s', some g)) :
    (s'.currentText uri).map (·.2) = some v ∧ s'.currentIf uri g = s'.currentText uri ∧
      ∀ g', s.isCurrent uri g' = true →
        g' < g ∧ s'.isCurrent uri g' = false ∧ s'.currentIf uri g' = none := by
  unfold Scheduler.applyChanges at h
  cases hs : s uri with
  | none => rw [hs] at h; simp at h
  | some e =>
    rw [hs] at h
    simp only [Option.map_eq_some_iff, Prod.mk.injEq, Option.some.injEq] at h
    obtain ⟨t, _, rfl, rfl⟩ := h
    refine ⟨by simp [Scheduler.currentText], by simp [Scheduler.currentText, Scheduler.currentIf], ?_⟩
    intro g' hg'
    simp only [Scheduler.isCurrent, hs, beq_iff_eq] at hg'
    subst hg'
    exact ⟨Nat.lt_succ_self _, by simp [Scheduler.isCurrent], by simp [Scheduler.currentIf]⟩

/-! ## A concrete case: two documents, an edit across lines after one beyond the 16-bit characters -/

def sampleActs : List Act :=
  [.opens 0 ['a', Char.ofNat 120120, 'b', '\n', 'c'] 1, .opens 1 ['x'] 1,
   .edits 0 [.part ['a', Char.ofNat 120120] ['b', '\n'] ['c'] ['-'],
     .part ['a'] [] [Char.ofNat 120120, '-', 'c'] ['\n']] 2,
   .closes 1]

example : ∃ docs, actsOn (fun _ => none) sampleActs = some docs ∧
    docs 0 = some ['a', '\n', Char.ofNat 120120, '-', 'c'] ∧ docs 1 = none := by
  refine ⟨_, rfl, ?_, rfl⟩
  decide +kernel

example : (Scheduler.empty.open 7 ['a'] 1).applyChanges 7 [⟨some ((0, 0), (0, 1)), ['b']⟩] 2 ≠ none := by
  simp only [Scheduler.applyChanges, Scheduler.open, if_true]
  rw [show applyAll ['a'] [⟨some ((0, 0), (0, 1)), ['b']⟩] = some ['b'] by decide +kernel]
  simp

/-! ## Where it fails -/

/-- **C104 fails.**  An edit that names the end of a line by a character beyond it, as the protocol
allows, also removes the line break: emptying line 0 of `abc\ndef`. -/
theorem C104_past_end_fails :
    applyChange ['a', 'b', 'c', '\n', 'd', 'e', 'f'] ⟨some ((0, 0), (0, 10)), []⟩ =
      some ['d', 'e', 'f'] := by
  decide +kernel

/-- The property in full is false. -/
theorem C104_full_fails : ¬ DocumentsInStep := by
  intro h
  have := h [] ['a', 'b', 'c'] ['\n', 'd', 'e', 'f'] [] 0 10 (.inl rfl) (.inr (by decide +kernel))
  revert this
  decide +kernel

end Verif.Props
