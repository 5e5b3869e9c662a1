import Verif.Props.CopyProp

/-!
# C121: what copy propagation leaves in the slots that are written back
-/
namespace Verif.Props

open Verif.Lang Verif.Lang.Strength

/-- The word a program returns and the frame it leaves; `none` when it does not return. -/
def returns (prog : List Instr) : Nat → Nat → (Nat → BitVec 64) → Option (BitVec 64 × (Nat → BitVec 64))
  | fuel, pc, fr =>
    match prog[pc]? with
    | none => none
    | some i =>
      match fuel with
      | 0 => none
      | f + 1 =>
        match stepAt i pc fr with
        | .done (.value w) => some (w, fr)
        | .done _ => none
        | .next pc' fr' => returns prog f pc' fr'

/-- The word is the one of the run. -/
theorem returns_word (prog : List Instr) (f pc : Nat) (fr : Nat → BitVec 64) (w : BitVec 64) :
    refRun prog f pc fr = .value w ↔ ∃ g, returns prog f pc fr = some (w, g) := by
  induction f generalizing pc fr with
  | zero => unfold refRun returns; cases prog[pc]? <;> simp
  | succ f ih =>
    unfold refRun returns
    cases prog[pc]? with
    | none => simp
    | some i =>
      dsimp only
      cases stepAt i pc fr with
      | done e => cases e <;> simp
      | next pc' fr' => exact ih pc' fr'

theorem returns_mono {prog : List Instr} {f pc : Nat} {fr : Nat → BitVec 64} {x : BitVec 64 × (Nat → BitVec 64)}
    (h : returns prog f pc fr = some x) : returns prog (f + 1) pc fr = some x := by
  induction f generalizing pc fr with
  | zero => unfold returns at h; cases hp : prog[pc]? <;> simp [hp] at h
  | succ f ih =>
    unfold returns at h ⊢
    cases hp : prog[pc]? with
    | none => simp [hp] at h
    | some i =>
      simp only [hp] at h ⊢
      cases hs : stepAt i pc fr with
      | done e => cases e <;> simp [hs] at h ⊢; exact h
      | next pc' fr' => simp only [hs] at h ⊢; exact ih h

theorem keys_of_writes {l : List Instr} (hp : ∀ i ∈ l, ¬ WritesOperand i) :
    ∀ i ∈ l, ∀ k d, keyOf i = some (k, d) → k.2.1 ≠ d ∧ k.2.2 ≠ d := by
  intro i hi k d hk
  have hw := hp i hi
  cases i <;> simp only [keyOf, reduceCtorEq] at hk
  case op o d' l r =>
    simp only [WritesOperand] at hw
    split_ifs at hk with h1 h2 <;> simp only [Option.some.injEq, Prod.mk.injEq] at hk <;>
      obtain ⟨rfl, rfl⟩ := hk <;> simp only [not_or] at h1 <;>
      have h3 : d' ≠ l ∧ d' ≠ r := ⟨fun e => hw ⟨h1.1, h1.2, .inl e⟩, fun e => hw ⟨h1.1, h1.2, .inr e⟩⟩
    · refine ⟨?_, ?_⟩ <;> simp only <;> omega
    · exact ⟨h3.1.symm, h3.2.symm⟩
  case notInt d' s =>
    simp only [Option.some.injEq, Prod.mk.injEq] at hk
    obtain ⟨rfl, rfl⟩ := hk
    exact ⟨fun e => hw e.symm, fun e => hw e.symm⟩

theorem propagate_returns (prog : List Instr)
    (hp : ∀ i ∈ propagate prog, ∀ k d, keyOf i = some (k, d) → k.2.1 ≠ d ∧ k.2.2 ≠ d)
    (f pc : Nat) (fr : Nat → BitVec 64) (hv : Valid (tabAt prog pc) fr) :
    returns (propagate prog) f pc fr = returns prog f pc fr := by
  induction f generalizing pc fr with
  | zero =>
    unfold returns
    rw [propagate_get]
    cases prog[pc]? <;> rfl
  | succ f ih =>
    unfold returns
    cases hi : prog[pc]? with
    | none => rw [propagate_get, hi]; rfl
    | some i =>
      have hget : (propagate prog)[pc]? = some (redirect (tabAt prog pc) i) := by rw [propagate_get, hi]; rfl
      simp only [hget]
      have hstep := step_redirect hv i pc
      cases hs : stepAt i pc fr with
      | done e => simp only [hstep, hs]; cases e <;> rfl
      | next pc' fr' =>
        simp only [hstep, hs]
        apply ih
        rcases valid_after hv (hp _ (List.mem_of_getElem? hget)) (hstep.trans hs) with ⟨rfl, h⟩ | h
        · simp only [tabAt, hi, enter]
          split_ifs
          · exact valid_empty _
          · exact h
        · rw [target_redirect] at h
          have : leader prog pc' = true := by
            unfold leader
            rw [List.any_eq_true]
            exact ⟨i, List.mem_of_getElem? hi, by simp [h]⟩
          rw [tab_leader this]
          exact valid_empty _

/-- What an instruction does to a frame. -/
theorem step_next {i : Instr} {pc pc' : Nat} {fr fr' : Nat → BitVec 64} (h : stepAt i pc fr = .next pc' fr') :
    (∃ d z, defOf i = some d ∧ pc' = pc + 1 ∧ fr' = put fr d z) ∨
    (defOf i = none ∧ (pc' = pc + 1 ∨ targetOf i = some pc') ∧ fr' = fr) := by
  cases i <;> simp only [stepAt] at h
  case const d v => injection h with h1 h2; exact .inl ⟨d, _, rfl, h1.symm, h2.symm⟩
  case move d v => injection h with h1 h2; exact .inl ⟨d, _, rfl, h1.symm, h2.symm⟩
  case shift d l k => injection h with h1 h2; exact .inl ⟨d, _, rfl, h1.symm, h2.symm⟩
  case notInt d s => injection h with h1 h2; exact .inl ⟨d, _, rfl, h1.symm, h2.symm⟩
  case op o d l r =>
    split at h
    · injection h with h1 h2; exact .inl ⟨d, _, rfl, h1.symm, h2.symm⟩
    · simp at h
  case jump t => injection h with h1 h2; exact .inr ⟨rfl, .inr (by simp [targetOf, h1]), h2.symm⟩
  case jumpIfFalse c t =>
    split_ifs at h
    · injection h with h1 h2; exact .inr ⟨rfl, .inr (by simp [targetOf, h1]), h2.symm⟩
    · injection h with h1 h2; exact .inr ⟨rfl, .inl h1.symm, h2.symm⟩
  case jumpIfTrue c t =>
    split_ifs at h
    · injection h with h1 h2; exact .inr ⟨rfl, .inr (by simp [targetOf, h1]), h2.symm⟩
    · injection h with h1 h2; exact .inr ⟨rfl, .inl h1.symm, h2.symm⟩
  case branch c l r t =>
    split at h
    · split_ifs at h
      · injection h with h1 h2; exact .inr ⟨rfl, .inl h1.symm, h2.symm⟩
      · injection h with h1 h2; exact .inr ⟨rfl, .inr (by simp [targetOf, h1]), h2.symm⟩
    · simp at h
  case ret s => simp at h

/-- The same instruction, its target moved, on a frame that holds the same in the slots it reads. -/
theorem step_shifted {i : Instr} {idx pc pc' : Nat} {fr fr' g : Nat → BitVec 64} (hne : pc ≠ idx)
    (hr : ∀ s ∈ readsOf i, fr s = g s) (h : stepAt i pc fr = .next pc' fr') :
    ∃ g', stepAt (retarget idx i) (shiftTo idx pc) g = .next (shiftTo idx pc') g' ∧
      ((∃ d z, defOf i = some d ∧ fr' = put fr d z ∧ g' = put g d z) ∨ (defOf i = none ∧ fr' = fr ∧ g' = g)) := by
  have hnext : shiftTo idx (pc + 1) = shiftTo idx pc + 1 := by unfold shiftTo; split_ifs <;> omega
  cases i <;> simp only [stepAt, readsOf, List.mem_cons, List.not_mem_nil, or_false, forall_eq_or_imp, forall_eq] at h hr <;>
    simp only [retarget, stepAt]
  case const d v => injection h with h1 h2; subst h1 h2; exact ⟨_, by rw [hnext], .inl ⟨d, _, rfl, rfl, rfl⟩⟩
  case move d s =>
    injection h with h1 h2; subst h1 h2
    exact ⟨_, by rw [hnext], .inl ⟨d, _, rfl, rfl, by rw [hr]⟩⟩
  case shift d l k =>
    injection h with h1 h2; subst h1 h2
    exact ⟨_, by rw [hnext], .inl ⟨d, _, rfl, rfl, by rw [hr]⟩⟩
  case notInt d s =>
    injection h with h1 h2; subst h1 h2
    exact ⟨_, by rw [hnext], .inl ⟨d, _, rfl, rfl, by rw [hr]⟩⟩
  case op o d l r =>
    rw [← hr.1, ← hr.2]
    split at h
    · next w hw =>
      injection h with h1 h2; subst h1 h2
      exact ⟨_, by rw [hnext], .inl ⟨d, w, rfl, rfl, rfl⟩⟩
    · simp at h
  case jump t => injection h with h1 h2; subst h1 h2; exact ⟨_, rfl, .inr ⟨rfl, rfl, rfl⟩⟩
  case jumpIfFalse c t =>
    rw [← hr]
    split_ifs at h ⊢ <;> injection h with h1 h2 <;> subst h1 h2
    · exact ⟨_, rfl, .inr ⟨rfl, rfl, rfl⟩⟩
    · exact ⟨_, by rw [hnext], .inr ⟨rfl, rfl, rfl⟩⟩
  case jumpIfTrue c t =>
    rw [← hr]
    split_ifs at h ⊢ <;> injection h with h1 h2 <;> subst h1 h2
    · exact ⟨_, rfl, .inr ⟨rfl, rfl, rfl⟩⟩
    · exact ⟨_, by rw [hnext], .inr ⟨rfl, rfl, rfl⟩⟩
  case branch c l r t =>
    rw [← hr.1, ← hr.2]
    split at h
    · next w hw =>
      split_ifs at h ⊢ <;> injection h with h1 h2 <;> subst h1 h2
      · exact ⟨_, by rw [hnext], .inr ⟨rfl, rfl, rfl⟩⟩
      · exact ⟨_, rfl, .inr ⟨rfl, rfl, rfl⟩⟩
    · simp at h
  case ret s => simp at h

/-- The frames stay the same but for a dead slot. -/
theorem rel_next {prog : List Instr} {d pc pc' : Nat} {i : Instr} {D : Nat → Prop} {fr fr' fr1 g1 : Nat → BitVec 64}
    (hi : prog[pc]? = some i) (hs : stepAt i pc fr = .next pc' fr1)
    (h2 : (∃ d z, defOf i = some d ∧ fr1 = put fr d z ∧ g1 = put fr' d z) ∨ (defOf i = none ∧ fr1 = fr ∧ g1 = fr'))
    (hDn : ∀ (pc : Nat) (i : Instr), D pc → prog[pc]? = some i →
      defOf i = some d ∨ (D (pc + 1) ∧ ∀ t, targetOf i = some t → D t))
    (ha : ∀ s, (s = d → ¬ D pc) → fr s = fr' s) : ∀ s, (s = d → ¬ D pc') → fr1 s = g1 s := by
  intro s hs'
  rcases h2 with ⟨e, z, h3, rfl, rfl⟩ | ⟨h3, rfl, rfl⟩
  · simp only [put]
    split_ifs with hse
    · rfl
    · refine ha s fun hsd hDp => ?_
      rcases hDn pc i hDp hi with h4 | h4
      · rw [h3] at h4; injection h4 with h4; exact hse (hsd.trans h4.symm)
      · rcases step_next hs with ⟨_, _, _, h5, _⟩ | ⟨h5, _⟩
        · exact hs' hsd (h5 ▸ h4.1)
        · rw [h3] at h5; simp at h5
  · refine ha s fun hsd hDp => hs' hsd ?_
    rcases hDn pc i hDp hi with h4 | h4
    · rw [h3] at h4; simp at h4
    · rcases step_next hs with ⟨_, _, h5, _⟩ | ⟨_, h5 | h5, _⟩
      · rw [h3] at h5; simp at h5
      · exact h5 ▸ h4.1
      · exact h4.2 _ h5

/-- Removing an instruction whose slot is dead after it keeps the word and every other slot. -/
theorem returns_remove (prog : List Instr) (idx d : Nat) (v : Instr) (D : Nat → Prop)
    (hv : prog[idx]? = some v) (hvd : defOf v = some d)
    (hD1 : D (idx + 1))
    (hDr : ∀ (pc : Nat) (i : Instr), D pc → prog[pc]? = some i → d ∉ readsOf i)
    (hDn : ∀ (pc : Nat) (i : Instr), D pc → prog[pc]? = some i →
      defOf i = some d ∨ (D (pc + 1) ∧ ∀ t, targetOf i = some t → D t))
    (f pc : Nat) (fr fr' g : Nat → BitVec 64) (w : BitVec 64)
    (h : returns prog f pc fr = some (w, g)) (ha : ∀ s, (s = d → ¬ D pc) → fr s = fr' s) :
    ∃ g', returns (removeAt prog idx) f (shiftTo idx pc) fr' = some (w, g') ∧ ∀ s, s ≠ d → g s = g' s := by
  induction f generalizing pc fr fr' with
  | zero => unfold returns at h; cases hp : prog[pc]? <;> simp [hp] at h
  | succ f ih =>
    unfold returns at h
    cases hi : prog[pc]? with
    | none => simp [hi] at h
    | some i =>
      simp only [hi] at h
      by_cases hp : pc = idx
      · subst hp
        have hiv : i = v := by rw [hv] at hi; injection hi with hi; exact hi.symm
        subst hiv
        cases hs : stepAt i pc fr with
        | done e =>
          cases e <;> simp [hs] at h
          cases i <;> simp [stepAt, defOf] at hs hvd; split at hs <;> simp at hs
        | next pc' fr1 =>
          simp only [hs] at h
          rcases step_next hs with ⟨e, z, h1, rfl, rfl⟩ | ⟨h1, _⟩
          · rw [hvd] at h1; injection h1 with h1; subst h1
            have hsame : shiftTo pc (pc + 1) = shiftTo pc pc := by unfold shiftTo; split_ifs <;> omega
            obtain ⟨g', h2, h3⟩ := ih (pc + 1) _ fr' h (fun s hs => by
              have hne : s ≠ d := fun e => hs e hD1
              simp only [put, if_neg hne]; exact ha s fun e => absurd e hne)
            exact ⟨g', by rw [← hsame]; exact returns_mono h2, h3⟩
          · rw [hvd] at h1; simp at h1
      · have hget : (removeAt prog idx)[shiftTo idx pc]? = some (retarget idx i) := by
          rw [removeAt_get prog idx pc hp, hi]; rfl
        have hr : ∀ s ∈ readsOf i, fr s = fr' s := fun s hs => ha s fun e hD => hDr _ _ hD hi (e ▸ hs)
        cases hs : stepAt i pc fr with
        | done e =>
          cases e <;> simp [hs] at h
          obtain ⟨rfl, rfl⟩ := h
          refine ⟨fr', ?_, fun s hs => ha s fun e => absurd e hs⟩
          unfold returns
          simp only [hget]
          cases i <;> simp only [stepAt, reduceCtorEq] at hs
          case ret s =>
            simp only [retarget, stepAt]
            injection hs with hs; injection hs with hs
            rw [← hs, hr s (by simp [readsOf])]
          all_goals (repeat' split at hs) <;> simp at hs
        | next pc' fr1 =>
          simp only [hs] at h
          obtain ⟨g1, h1, h2⟩ := step_shifted hp hr hs
          have hrel := rel_next hi hs h2 hDn ha
          obtain ⟨g', h3, h4⟩ := ih pc' fr1 g1 h hrel
          refine ⟨g', ?_, h4⟩
          unfold returns
          simp only [hget, h1]
          exact h3

theorem def_of_victim {v : Instr} {d : Nat}
    (h : (∃ k, keyOf v = some (k, d)) ∨ (∃ s, v = .move d s) ∨ ∃ c, v = .const d c) : defOf v = some d := by
  rcases h with ⟨k, hk⟩ | ⟨s, rfl⟩ | ⟨c, rfl⟩
  · exact (step_key hk 0 (fun _ => 0)).1
  · rfl
  · rfl

theorem victim_scratch {removable : Nat → Bool} {prog : List Instr} {v : Instr} {d : Nat}
    (h : victim removable prog v = true) (hd : defOf v = some d) : removable d = true := by
  cases v <;> simp only [victim, Bool.and_eq_true, deadSlot] at h
  case const e c => simp only [defOf, Option.some.injEq] at hd; exact hd ▸ h.1
  case move e c => simp only [defOf, Option.some.injEq] at hd; exact hd ▸ h.2.1
  all_goals
    split at h
    · next k e hk =>
      have := (step_key hk 0 (fun _ => 0)).1
      rw [this] at hd; injection hd with hd
      exact hd ▸ (by simpa using h : _ ∧ _).1
    · simp at h

theorem overwritten_scratch {removable : Nat → Bool} {rest : List Instr} {v : Instr} {d : Nat}
    (h : overwritten removable v rest = true) (hd : defOf v = some d) : removable d = true := by
  cases v <;> simp only [overwritten, Bool.and_eq_true] at h
  case const e c => simp only [defOf, Option.some.injEq] at hd; exact hd ▸ h.1
  case move e c => simp only [defOf, Option.some.injEq] at hd; exact hd ▸ h.2.1
  all_goals
    split at h
    · next k e hk =>
      have := (step_key hk 0 (fun _ => 0)).1
      rw [this] at hd; injection hd with hd
      exact hd ▸ (by simpa using h : _ ∧ _).1
    · simp at h

/-- Removing what nothing reads: a program that returns a word still returns it, with the same fuel, and every
slot that is not scratch holds the same at the end. -/
theorem C121_trim_frame (removable : Nat → Bool) (m : Nat) (prog : List Instr) (fuel : Nat)
    (fr g : Nat → BitVec 64) (w : BitVec 64) (h : returns prog fuel 0 fr = some (w, g)) :
    ∃ g', returns (trim removable m prog) fuel 0 fr = some (w, g') ∧ ∀ s, removable s = false → g' s = g s := by
  induction m generalizing prog g with
  | zero => exact ⟨g, h, fun _ _ => rfl⟩
  | succ m ih =>
    unfold trim
    split
    · exact ⟨g, h, fun _ _ => rfl⟩
    · next idx hidx =>
      obtain ⟨hlt, hvic, _⟩ := List.findIdx?_eq_some_iff_getElem.1 hidx
      obtain ⟨d, h1, h2⟩ := victim_of hvic
      obtain ⟨g1, h3, h4⟩ := returns_remove prog idx d prog[idx] (fun _ => True) (List.getElem?_eq_getElem hlt)
        (def_of_victim h1) trivial (fun pc i _ hi => h2 i (List.mem_of_getElem? hi))
        (fun _ _ _ _ => .inr ⟨trivial, fun _ _ => trivial⟩) fuel 0 fr fr g w h (fun _ _ => rfl)
      obtain ⟨g2, h5, h6⟩ := ih _ g1 (by simpa [shiftTo] using h3)
      refine ⟨g2, h5, fun s hs => (h6 s hs).trans (h4 s ?_).symm⟩
      rintro rfl
      rw [victim_scratch hvic (def_of_victim h1)] at hs
      simp at hs

/-- The same of what is written again before it is read. -/
theorem C121_sweep_frame (removable : Nat → Bool) (m : Nat) (prog : List Instr) (fuel : Nat)
    (fr g : Nat → BitVec 64) (w : BitVec 64) (h : returns prog fuel 0 fr = some (w, g)) :
    ∃ g', returns (sweep removable m prog) fuel 0 fr = some (w, g') ∧ ∀ s, removable s = false → g' s = g s := by
  induction m generalizing prog g with
  | zero => exact ⟨g, h, fun _ _ => rfl⟩
  | succ m ih =>
    unfold sweep
    split
    · exact ⟨g, h, fun _ _ => rfl⟩
    · next idx hidx =>
      obtain ⟨v, hv, hov⟩ := firstOverwritten_of hidx
      obtain ⟨d, h1, h2⟩ := overwritten_of hov
      have hcons : ∀ (pc : Nat) (i : Instr), prog[pc]? = some i → prog.drop pc = i :: prog.drop (pc + 1) := by
        intro pc i hi
        obtain ⟨hlt, rfl⟩ := List.getElem?_eq_some_iff.1 hi
        exact List.drop_eq_getElem_cons hlt
      obtain ⟨g1, h3, h4⟩ := returns_remove prog idx d v (fun pc => rewritten d (prog.drop pc) = true) hv
        (def_of_victim h1) h2
        (fun pc i hD hi => (rewritten_cons (hcons pc i hi ▸ hD)).1)
        (fun pc i hD hi => by
          rcases (rewritten_cons (hcons pc i hi ▸ hD)).2 with h3 | ⟨h3, h4⟩
          · exact .inl h3
          · exact .inr ⟨h4, fun t ht => by rw [h3] at ht; simp at ht⟩) fuel 0 fr fr g w h (fun _ _ => rfl)
      obtain ⟨g2, h5, h6⟩ := ih _ g1 (by simpa [shiftTo] using h3)
      refine ⟨g2, h5, fun s hs => (h6 s hs).trans (h4 s ?_).symm⟩
      rintro rfl
      rw [overwritten_scratch hov (def_of_victim h1)] at hs
      simp at hs

/-- The whole pass: a program that returns a word still returns it, with the same fuel, and every slot that is
not scratch, so every slot that is written back, holds the same at the end.  Partial: only where after the
first phase no remembered operation writes its own operand (`C121_increment_fails`). -/
theorem C121_frame_partial (removable : Nat → Bool) (prog : List Instr)
    (hp : ∀ i ∈ propagate prog, ¬ WritesOperand i) (fuel : Nat) (fr g : Nat → BitVec 64) (w : BitVec 64)
    (h : returns prog fuel 0 fr = some (w, g)) :
    ∃ g', returns (copyPass removable prog) fuel 0 fr = some (w, g') ∧ ∀ s, removable s = false → g' s = g s := by
  have h0 : tabAt prog 0 = .empty := by simp only [tabAt, enter]; split_ifs <;> rfl
  rw [← propagate_returns prog (keys_of_writes hp) fuel 0 fr (h0 ▸ valid_empty fr)] at h
  obtain ⟨g1, h1, h2⟩ := C121_trim_frame removable (propagate prog).length _ fuel fr g w h
  obtain ⟨g2, h3, h4⟩ := C121_sweep_frame removable (trim removable (propagate prog).length (propagate prog)).length
    _ fuel fr g1 w h1
  exact ⟨g2, h3, fun s hs => (h4 s hs).trans (h2 s hs)⟩

/-- On the loop: slot 1, the counter, is written back with 10; with the same fuel the result of the pass
leaves 10 there too, and what is in the scratch slot 5 differs. -/
example : (∀ i ∈ propagate copyLoop, ¬ WritesOperand i) ∧
    (returns copyLoop 200 0 (fun s => if s = 0 then 10 else 99)).map (fun p => (p.1, p.2 1, p.2 5)) =
      some (10, 10, 10) ∧
    (returns (copyPass (fun d => decide (2 ≤ d)) copyLoop) 200 0 (fun s => if s = 0 then 10 else 99)).map
      (fun p => (p.1, p.2 1, p.2 5)) = some (10, 10, 99) := by
  refine ⟨?_, by decide +kernel, by decide +kernel⟩
  have h : propagate copyLoop =
      [.const 1 0, .const 6 1, .branch .lt 1 0 10, .const 2 1, .op .add 3 1 2, .const 4 1, .op .add 5 2 1,
        .move 7 3, .move 1 3, .jump 2, .ret 1] := by decide +kernel
  rw [h]
  simp [WritesOperand]

/-- The same instruction, its target moved, ends the run in the same way. -/
theorem step_ends {i : Instr} {idx pc pc' : Nat} {fr g : Nat → BitVec 64} {e : End}
    (hr : ∀ s ∈ readsOf i, fr s = g s) (h : stepAt i pc fr = .done e) : stepAt (retarget idx i) pc' g = .done e := by
  cases i <;> simp only [stepAt, readsOf, List.mem_cons, List.not_mem_nil, or_false, forall_eq_or_imp, forall_eq,
      reduceCtorEq] at h hr <;> simp only [retarget, stepAt]
  case op o d l r =>
    rw [← hr.1, ← hr.2]
    split at h
    · simp at h
    · exact h
  case jumpIfFalse c t => split_ifs at h
  case jumpIfTrue c t => split_ifs at h
  case branch c l r t =>
    rw [← hr.1, ← hr.2]
    split at h
    · split_ifs at h
    · exact h
  case ret s => rw [← hr]; exact h

/-- How the program ends that an instruction was removed from, the program itself ends, unless it leaves. -/
theorem run_restore (prog : List Instr) (idx d : Nat) (v : Instr) (D : Nat → Prop)
    (hv : prog[idx]? = some v) (hvd : defOf v = some d)
    (hD1 : D (idx + 1))
    (hDr : ∀ (pc : Nat) (i : Instr), D pc → prog[pc]? = some i → d ∉ readsOf i)
    (hDn : ∀ (pc : Nat) (i : Instr), D pc → prog[pc]? = some i →
      defOf i = some d ∨ (D (pc + 1) ∧ ∀ t, targetOf i = some t → D t))
    (e : End) (he : e ≠ .fuel) (f pc : Nat) (fr fr' : Nat → BitVec 64)
    (h : refRun (removeAt prog idx) f (shiftTo idx pc) fr' = e) (ha : ∀ s, (s = d → ¬ D pc) → fr s = fr' s) :
    ∃ f', refRun prog f' pc fr = .exit ∨ refRun prog f' pc fr = e := by
  induction f using Nat.strong_induction_on generalizing pc fr fr' with
  | _ f ih =>
    have main : ∀ pc fr, pc ≠ idx → refRun (removeAt prog idx) f (shiftTo idx pc) fr' = e →
        (∀ s, (s = d → ¬ D pc) → fr s = fr' s) → ∃ f', refRun prog f' pc fr = .exit ∨ refRun prog f' pc fr = e := by
      intro pc fr hp h ha
      have hget := removeAt_get prog idx pc hp
      unfold refRun at h
      rw [hget] at h
      cases hi : prog[pc]? with
      | none =>
        rw [hi] at h
        exact ⟨0, .inr (by unfold refRun; rw [hi]; exact h)⟩
      | some i =>
        rw [hi] at h
        simp only [Option.map_some] at h
        cases f with
        | zero => exact absurd h.symm he
        | succ f =>
          have hr : ∀ s ∈ readsOf i, fr s = fr' s := fun s hs => ha s fun e hD => hDr _ _ hD hi (e ▸ hs)
          cases hs : stepAt i pc fr with
          | done e' =>
            simp only [step_ends hr hs] at h
            exact ⟨1, .inr (by unfold refRun; simp only [hi, hs]; exact h)⟩
          | next pc' fr1 =>
            obtain ⟨g1, h1, h2⟩ := step_shifted hp hr hs
            simp only [h1] at h
            obtain ⟨f', h3⟩ := ih f (Nat.lt_succ_self f) pc' fr1 g1 h (rel_next hi hs h2 hDn ha)
            exact ⟨f' + 1, by unfold refRun; simp only [hi, hs]; exact h3⟩
    by_cases hp : pc = idx
    · subst hp
      cases hs : stepAt v pc fr with
      | done e' =>
        have : e' = .exit := by
          cases v <;> simp only [stepAt, defOf, reduceCtorEq] at hs hvd
          split at hs <;> simp at hs
          exact hs.symm
        exact ⟨1, .inl (by unfold refRun; simp only [hv, hs, this])⟩
      | next pc' fr1 =>
        rcases step_next hs with ⟨e', z, h1, rfl, rfl⟩ | ⟨h1, _⟩
        · rw [hvd] at h1; injection h1 with h1; subst h1
          have hsame : shiftTo pc (pc + 1) = shiftTo pc pc := by unfold shiftTo; split_ifs <;> omega
          obtain ⟨f', h3⟩ := main (pc + 1) (put fr d z) (by omega) (hsame ▸ h) (fun s hs => by
            have hne : s ≠ d := fun e => hs e hD1
            simp only [put, if_neg hne]; exact ha s fun e => absurd e hne)
          exact ⟨f' + 1, by unfold refRun; simp only [hv, hs]; exact h3⟩
        · rw [hvd] at h1; simp at h1
    · exact main pc fr hp h ha

/-- The pass gives no program a new result: what its result returns the program returns too, unless it leaves
to the interpreter (at an operation that the pass removed).  Partial as above. -/
theorem C121_nothing_new_partial (removable : Nat → Bool) (prog : List Instr)
    (hp : ∀ i ∈ propagate prog, ¬ WritesOperand i) (fuel : Nat) (fr : Nat → BitVec 64) (e : End) (he : e ≠ .fuel)
    (h : refRun (copyPass removable prog) fuel 0 fr = e) :
    ∃ fuel', refRun prog fuel' 0 fr = .exit ∨ refRun prog fuel' 0 fr = e := by
  have hsweep : ∀ (m : Nat) (p : List Instr) (e : End) (f : Nat), e ≠ .fuel → refRun (sweep removable m p) f 0 fr = e →
      ∃ f', refRun p f' 0 fr = .exit ∨ refRun p f' 0 fr = e := by
    intro m
    induction m with
    | zero => intro p e f _ h; exact ⟨f, .inr h⟩
    | succ m ih =>
      intro p e f he h
      unfold sweep at h
      split at h
      · exact ⟨f, .inr h⟩
      · next idx hidx =>
        obtain ⟨v, hv, hov⟩ := firstOverwritten_of hidx
        obtain ⟨d, h1, h2⟩ := overwritten_of hov
        have hcons : ∀ (pc : Nat) (i : Instr), p[pc]? = some i → p.drop pc = i :: p.drop (pc + 1) := by
          intro pc i hi
          obtain ⟨hlt, rfl⟩ := List.getElem?_eq_some_iff.1 hi
          exact List.drop_eq_getElem_cons hlt
        have back := fun (e : End) (he : e ≠ .fuel) (f : Nat) (h : refRun (removeAt p idx) f 0 fr = e) =>
          run_restore p idx d v (fun pc => rewritten d (p.drop pc) = true) hv (def_of_victim h1) h2
            (fun pc i hD hi => (rewritten_cons (hcons pc i hi ▸ hD)).1)
            (fun pc i hD hi => by
              rcases (rewritten_cons (hcons pc i hi ▸ hD)).2 with h3 | ⟨h3, h4⟩
              · exact .inl h3
              · exact .inr ⟨h4, fun t ht => by rw [h3] at ht; simp at ht⟩)
            e he f 0 fr fr (by simpa [shiftTo] using h) (fun _ _ => rfl)
        obtain ⟨f1, h3 | h3⟩ := ih _ e f he h
        · obtain ⟨f2, h4⟩ := back .exit (by simp) f1 h3
          exact ⟨f2, .inl (h4.elim id id)⟩
        · exact back e he f1 h3
  have htrim : ∀ (m : Nat) (p : List Instr) (e : End) (f : Nat), e ≠ .fuel → refRun (trim removable m p) f 0 fr = e →
      ∃ f', refRun p f' 0 fr = .exit ∨ refRun p f' 0 fr = e := by
    intro m
    induction m with
    | zero => intro p e f _ h; exact ⟨f, .inr h⟩
    | succ m ih =>
      intro p e f he h
      unfold trim at h
      split at h
      · exact ⟨f, .inr h⟩
      · next idx hidx =>
        obtain ⟨hlt, hvic, _⟩ := List.findIdx?_eq_some_iff_getElem.1 hidx
        obtain ⟨d, h1, h2⟩ := victim_of hvic
        have back := fun (e : End) (he : e ≠ .fuel) (f : Nat) (h : refRun (removeAt p idx) f 0 fr = e) =>
          run_restore p idx d p[idx] (fun _ => True) (List.getElem?_eq_getElem hlt) (def_of_victim h1) trivial
            (fun pc i _ hi => h2 i (List.mem_of_getElem? hi))
            (fun _ _ _ _ => .inr ⟨trivial, fun _ _ => trivial⟩)
            e he f 0 fr fr (by simpa [shiftTo] using h) (fun _ _ => rfl)
        obtain ⟨f1, h3 | h3⟩ := ih _ e f he h
        · obtain ⟨f2, h4⟩ := back .exit (by simp) f1 h3
          exact ⟨f2, .inl (h4.elim id id)⟩
        · exact back e he f1 h3
  simp only [← C121_propagate_partial prog hp]
  obtain ⟨f1, h1 | h1⟩ := hsweep _ _ e fuel he h
  · obtain ⟨f2, h2⟩ := htrim _ _ .exit f1 (by simp) h1
    exact ⟨f2, .inl (h2.elim id id)⟩
  · exact htrim _ _ e f1 he h1

/-- A dead sum that overflows: the program leaves, the result of the pass returns 7. -/
example : (∀ i ∈ propagate [.op .add 3 0 0, .const 1 7, .ret 1], ¬ WritesOperand i) ∧
    refRun [.op .add 3 0 0, .const 1 7, .ret 1] 5 0 (fun _ => BitVec.intMax 64) = .exit ∧
    refRun (copyPass (fun d => decide (2 ≤ d)) [.op .add 3 0 0, .const 1 7, .ret 1]) 5 0 (fun _ => BitVec.intMax 64) =
      .value 7 := by
  refine ⟨?_, by decide +kernel, by decide +kernel⟩
  have h : propagate [.op .add 3 0 0, .const 1 7, .ret 1] = [.op .add 3 0 0, .const 1 7, .ret 1] := by decide +kernel
  rw [h]
  simp [WritesOperand]

end Verif.Props
