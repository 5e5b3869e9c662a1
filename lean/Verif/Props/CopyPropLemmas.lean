import Verif.Lang.CopyPropSound
import Verif.Props.JitRun

/-!
# Lemmas for C121: removing instructions
-/
namespace Verif.Props

open Verif.Lang Verif.Lang.Strength

theorem removeAt_get (prog : List Instr) (idx pc : Nat) (h : pc ≠ idx) :
    (removeAt prog idx)[shiftTo idx pc]? = (prog[pc]?).map (retarget idx) := by
  unfold removeAt shiftTo
  rw [List.getElem?_map, List.getElem?_eraseIdx]
  split_ifs with h1 h2 h2
  · omega
  · rw [show pc - 1 + 1 = pc by omega]
  · rfl
  · omega

/-- Removing an instruction whose slot is dead after it keeps the exact result.  `D pc`: nothing reads the
slot from `pc` on before it is written. -/
theorem exact_remove (P : Prims) (prog : List Instr) (idx d : Nat) (v : Instr) (D : Nat → Prop)
    (hv : prog[idx]? = some v)
    (hvd : (∃ k, keyOf v = some (k, d)) ∨ (∃ s, v = .move d s) ∨ ∃ c, v = .const d c)
    (hD1 : D (idx + 1))
    (hDr : ∀ (pc : Nat) (i : Instr), D pc → prog[pc]? = some i → d ∉ readsOf i)
    (hDn : ∀ (pc : Nat) (i : Instr), D pc → prog[pc]? = some i →
      defOf i = some d ∨ (D (pc + 1) ∧ ∀ t, targetOf i = some t → D t))
    (pc : Nat) (fr fr' : Nat → Int) (n : Int)
    (h : Exact P prog pc fr n) (ha : ∀ s, (s = d → ¬ D pc) → fr s = fr' s) :
    Exact P (removeAt prog idx) (shiftTo idx pc) fr' n := by
  have hput : ∀ {pc : Nat} {i : Instr} {fr fr' : Nat → Int} {e : Nat} {z : Int}, prog[pc]? = some i →
      defOf i = some e → (∀ s, (s = d → ¬ D pc) → fr s = fr' s) →
      ∀ s, (s = d → ¬ D (pc + 1)) → exactPut fr e z s = exactPut fr' e z s := by
    intro pc i fr fr' e z hi he ha s hs
    simp only [exactPut]
    split_ifs with hse
    · rfl
    · refine ha s fun hsd hDp => ?_
      rcases hDn pc i hDp hi with h1 | h1
      · rw [he] at h1; injection h1 with h1; exact hse (hsd.trans h1.symm)
      · exact hs hsd h1.1
  have hskip : ∀ {fr fr' : Nat → Int} {z : Int}, (∀ s, (s = d → ¬ D idx) → fr s = fr' s) →
      ∀ s, (s = d → ¬ D (idx + 1)) → exactPut fr d z s = fr' s := by
    intro fr fr' z ha s hs
    have hne : s ≠ d := fun e => hs e hD1
    simp only [exactPut, if_neg hne]; exact ha s fun e => absurd e hne
  have hjump : ∀ {pc t : Nat} {i : Instr} {fr fr' : Nat → Int}, prog[pc]? = some i → defOf i = none →
      (t = pc + 1 ∨ targetOf i = some t) → (∀ s, (s = d → ¬ D pc) → fr s = fr' s) →
      ∀ s, (s = d → ¬ D t) → fr s = fr' s := by
    intro pc t i fr fr' hi hdef ht ha s hs
    refine ha s fun hsd hDp => hs hsd ?_
    rcases hDn pc i hDp hi with h1 | h1
    · rw [hdef] at h1; simp at h1
    · rcases ht with rfl | ht
      · exact h1.1
      · exact h1.2 t ht
  have hnext : ∀ {pc : Nat}, pc ≠ idx → shiftTo idx (pc + 1) = shiftTo idx pc + 1 := by
    intro pc h; unfold shiftTo; split_ifs <;> omega
  have hsame : shiftTo idx (idx + 1) = shiftTo idx idx := by unfold shiftTo; split_ifs <;> omega
  have hget : ∀ {pc : Nat} {i : Instr}, prog[pc]? = some i → pc ≠ idx →
      (removeAt prog idx)[shiftTo idx pc]? = some (retarget idx i) := by
    intro pc i hi hne; rw [removeAt_get prog idx pc hne, hi]; rfl
  have hread : ∀ {pc : Nat} {i : Instr} {s : Nat}, prog[pc]? = some i → s ∈ readsOf i → (s = d → ¬ D pc) :=
    fun hi hs e hDp => hDr _ _ hDp hi (e ▸ hs)
  have hat : ∀ {pc : Nat} {i : Instr}, prog[pc]? = some i → pc = idx → i = v := by
    intro pc i hi e; subst e; rw [hv] at hi; injection hi with hi; exact hi.symm
  induction h generalizing fr' with
  | @const pc fr n e c hi _ ih =>
    by_cases hp : pc = idx
    · have := hat hi hp
      subst hp
      have hde : e = d := by
        rcases hvd with ⟨k, hk⟩ | ⟨s, hs⟩ | ⟨c', hc⟩
        · simp [← this, keyOf] at hk
        · simp [← this] at hs
        · rw [← this] at hc; injection hc
      subst hde
      rw [← hsame]
      exact ih _ (hskip ha)
    · exact .const (hget hi hp) (hnext hp ▸ ih _ (hput hi rfl ha))
  | @move pc fr n e s hi _ ih =>
    by_cases hp : pc = idx
    · have := hat hi hp
      subst hp
      have hde : e = d := by
        rcases hvd with ⟨k, hk⟩ | ⟨s, hs⟩ | ⟨c', hc⟩
        · simp [← this, keyOf] at hk
        · rw [← this] at hs; injection hs
        · simp [← this] at hc
      subst hde
      rw [← hsame]
      exact ih _ (hskip ha)
    · refine .move (hget hi hp) (hnext hp ▸ ih _ ?_)
      rw [ha s (hread hi (by simp [readsOf]))]; exact hput hi rfl ha
  | @op pc fr n o e l r z hi hz _ ih =>
    by_cases hp : pc = idx
    · have := hat hi hp
      subst hp
      have hde : e = d := by
        rcases hvd with ⟨k, hk⟩ | ⟨s, hs⟩ | ⟨c', hc⟩
        · have := (step_key (this ▸ hk) 0 (fun _ => 0)).1
          simpa [defOf] using this
        · simp [← this] at hs
        · simp [← this] at hc
      subst hde
      rw [← hsame]
      exact ih _ (hskip ha)
    · rw [ha l (hread hi (by simp [readsOf])), ha r (hread hi (by simp [readsOf]))] at hz
      exact .op (hget hi hp) hz (hnext hp ▸ ih _ (hput hi rfl ha))
  | @shift pc fr n e l k hi _ ih =>
    by_cases hp : pc = idx
    · have := hat hi hp
      rcases hvd with ⟨k, hk⟩ | ⟨s, hs⟩ | ⟨c', hc⟩
      · simp [← this, keyOf] at hk
      · simp [← this] at hs
      · simp [← this] at hc
    · refine .shift (hget hi hp) (hnext hp ▸ ih _ ?_)
      rw [ha l (hread hi (by simp [readsOf]))]; exact hput hi rfl ha
  | @notInt pc fr n e s hi _ ih =>
    by_cases hp : pc = idx
    · have := hat hi hp
      subst hp
      have hde : e = d := by
        rcases hvd with ⟨k, hk⟩ | ⟨s, hs⟩ | ⟨c', hc⟩
        · have := (step_key (this ▸ hk) 0 (fun _ => 0)).1
          simpa [defOf] using this
        · simp [← this] at hs
        · simp [← this] at hc
      subst hde
      rw [← hsame]
      exact ih _ (hskip ha)
    · refine .notInt (hget hi hp) (hnext hp ▸ ih _ ?_)
      rw [ha s (hread hi (by simp [readsOf]))]; exact hput hi rfl ha
  | @jump pc fr n t hi _ ih =>
    have hp : pc ≠ idx := by
      intro hp
      have := hat hi hp
      rcases hvd with ⟨k, hk⟩ | ⟨s, hs⟩ | ⟨c', hc⟩
      · simp [← this, keyOf] at hk
      · simp [← this] at hs
      · simp [← this] at hc
    exact .jump (hget hi hp) (ih _ (hjump hi rfl (.inr rfl) ha))
  | @ifFalse pc fr n c t hi _ ih =>
    have hp : pc ≠ idx := by
      intro hp
      have := hat hi hp
      rcases hvd with ⟨k, hk⟩ | ⟨s, hs⟩ | ⟨c', hc⟩
      · simp [← this, keyOf] at hk
      · simp [← this] at hs
      · simp [← this] at hc
    refine .ifFalse (hget hi hp) ?_
    have := ih _ (hjump hi rfl (by split_ifs <;> simp [targetOf]) ha)
    rw [← ha c (hread hi (by simp [readsOf])), ← hnext hp, ← apply_ite (shiftTo idx)]
    exact this
  | @ifTrue pc fr n c t hi _ ih =>
    have hp : pc ≠ idx := by
      intro hp
      have := hat hi hp
      rcases hvd with ⟨k, hk⟩ | ⟨s, hs⟩ | ⟨c', hc⟩
      · simp [← this, keyOf] at hk
      · simp [← this] at hs
      · simp [← this] at hc
    refine .ifTrue (hget hi hp) ?_
    have := ih _ (hjump hi rfl (by split_ifs <;> simp [targetOf]) ha)
    rw [← ha c (hread hi (by simp [readsOf])), ← hnext hp, ← apply_ite (shiftTo idx)]
    exact this
  | @branch pc fr n c l r t z hi hz _ ih =>
    have hp : pc ≠ idx := by
      intro hp
      have := hat hi hp
      rcases hvd with ⟨k, hk⟩ | ⟨s, hs⟩ | ⟨c', hc⟩
      · simp [← this, keyOf] at hk
      · simp [← this] at hs
      · simp [← this] at hc
    rw [ha l (hread hi (by simp [readsOf])), ha r (hread hi (by simp [readsOf]))] at hz
    refine .branch (hget hi hp) hz ?_
    have := ih _ (hjump hi rfl (by split_ifs <;> simp [targetOf]) ha)
    rw [← hnext hp, ← apply_ite (shiftTo idx)]
    exact this
  | @ret pc fr s hi =>
    have hp : pc ≠ idx := by
      intro hp
      have := hat hi hp
      rcases hvd with ⟨k, hk⟩ | ⟨s, hs⟩ | ⟨c', hc⟩
      · simp [← this, keyOf] at hk
      · simp [← this] at hs
      · simp [← this] at hc
    rw [ha s (hread hi (by simp [readsOf]))]
    exact .ret (hget hi hp)

theorem victim_of {removable : Nat → Bool} {prog : List Instr} {v : Instr} (h : victim removable prog v = true) :
    ∃ d, ((∃ k, keyOf v = some (k, d)) ∨ (∃ s, v = .move d s) ∨ ∃ c, v = .const d c) ∧ ∀ i ∈ prog, d ∉ readsOf i := by
  have hd : ∀ d, deadSlot removable prog d = true → ∀ i ∈ prog, d ∉ readsOf i := by
    intro d h i hi hm
    simp only [deadSlot, Bool.and_eq_true, Bool.not_eq_true', List.any_eq_false] at h
    exact h.2 i hi (by simpa using hm)
  cases v <;> simp only [victim, Bool.and_eq_true] at h
  case const d c => exact ⟨d, .inr (.inr ⟨c, rfl⟩), hd d h⟩
  case move d s => exact ⟨d, .inr (.inl ⟨s, rfl⟩), hd d h.2⟩
  all_goals
    split at h
    · next k d hk => exact ⟨d, .inl ⟨k, hk⟩, hd d h⟩
    · simp at h

theorem shifts_trim {removable : Nat → Bool} (m : Nat) {prog : List Instr} (h : ShiftsOk prog) :
    ShiftsOk (trim removable m prog) := by
  induction m generalizing prog with
  | zero => exact h
  | succ m ih =>
    unfold trim
    split
    · exact h
    · apply ih
      intro d l k hm
      simp only [removeAt, List.mem_map] at hm
      obtain ⟨i, hi, e⟩ := hm
      have : i = .shift d l k := by cases i <;> simp_all [retarget]
      exact h d l k (this ▸ List.mem_of_mem_eraseIdx hi)

theorem shifts_propagate {prog : List Instr} (h : ShiftsOk prog) : ShiftsOk (propagate prog) := by
  intro d l k hm
  obtain ⟨j, hj⟩ := List.mem_iff_getElem?.1 hm
  rw [propagate_get, Option.map_eq_some_iff] at hj
  obtain ⟨i, hi, e⟩ := hj
  cases i <;> simp only [redirect, reduceCtorEq] at e
  case shift d' l' k' =>
    injection e with _ _ e3
    exact e3 ▸ h d' l' k' (List.mem_of_getElem? hi)

theorem firstOverwritten_of {removable : Nat → Bool} {prog : List Instr} {idx : Nat}
    (h : firstOverwritten removable prog = some idx) :
    ∃ v, prog[idx]? = some v ∧ overwritten removable v (prog.drop (idx + 1)) = true := by
  induction prog generalizing idx with
  | nil => simp [firstOverwritten] at h
  | cons i rest ih =>
    simp only [firstOverwritten] at h
    split_ifs at h with hi
    · injection h with h; subst h
      exact ⟨i, rfl, by simpa using hi⟩
    · obtain ⟨j, hj, rfl⟩ := Option.map_eq_some_iff.1 h
      obtain ⟨v, h1, h2⟩ := ih hj
      exact ⟨v, by simpa using h1, by simpa using h2⟩

theorem overwritten_of {removable : Nat → Bool} {v : Instr} {rest : List Instr}
    (h : overwritten removable v rest = true) :
    ∃ d, ((∃ k, keyOf v = some (k, d)) ∨ (∃ s, v = .move d s) ∨ ∃ c, v = .const d c) ∧ rewritten d rest = true := by
  cases v <;> simp only [overwritten, Bool.and_eq_true] at h
  case const d c => exact ⟨d, .inr (.inr ⟨c, rfl⟩), h.2⟩
  case move d s => exact ⟨d, .inr (.inl ⟨s, rfl⟩), h.2.2⟩
  all_goals
    split at h
    · next k d hk => exact ⟨d, .inl ⟨k, hk⟩, (by simpa using h : _ ∧ _).2⟩
    · simp at h

theorem rewritten_cons {d : Nat} {i : Instr} {rest : List Instr} (h : rewritten d (i :: rest) = true) :
    d ∉ readsOf i ∧ (defOf i = some d ∨ targetOf i = none ∧ rewritten d rest = true) := by
  simp only [rewritten] at h
  split_ifs at h with h1 h2 h3
  · exact ⟨by simpa using h1, .inl h2⟩
  · exact ⟨by simpa using h1, .inr ⟨by simpa using h3, h⟩⟩

theorem shifts_sweep {removable : Nat → Bool} (m : Nat) {prog : List Instr} (h : ShiftsOk prog) :
    ShiftsOk (sweep removable m prog) := by
  induction m generalizing prog with
  | zero => exact h
  | succ m ih =>
    unfold sweep
    split
    · exact h
    · apply ih
      intro d l k hm
      simp only [removeAt, List.mem_map] at hm
      obtain ⟨i, hi, e⟩ := hm
      have : i = .shift d l k := by cases i <;> simp_all [retarget]
      exact h d l k (this ▸ List.mem_of_mem_eraseIdx hi)

end Verif.Props
