import Verif.Props.CopyPropLemmas

/-!
# C121: copy propagation in the JIT does not change what a program computes
-/
namespace Verif.Props

open Verif.Lang Verif.Lang.Strength

/-- A sum, product or other operation that is remembered, written over one of its own operands. -/
def WritesOperand : Instr → Prop
  | .op o d l r => o ≠ .div ∧ o ≠ .mod ∧ (d = l ∨ d = r)
  | .notInt d s => d = s
  | _ => False

/-- From any frame and with any fuel a program ends as it does after its reads were redirected: with the
same word, at the same kind of exit, or out of fuel.  Partial: only where no operation of the result
writes its own operand (`C121_increment_fails`). -/
theorem C121_propagate_partial (prog : List Instr) (hp : ∀ i ∈ propagate prog, ¬ WritesOperand i)
    (fuel : Nat) (fr : Nat → BitVec 64) :
    refRun (propagate prog) fuel 0 fr = refRun prog fuel 0 fr := by
  refine propagate_run prog ?_ fuel 0 fr ?_
  · intro i hi k d hk
    have hw := hp i hi
    cases i <;> simp only [keyOf, reduceCtorEq] at hk
    case op o d' l r =>
      simp only [WritesOperand] at hw
      split_ifs at hk with h1 h2 <;> simp only [Option.some.injEq, Prod.mk.injEq] at hk <;>
        obtain ⟨rfl, rfl⟩ := hk <;> simp only [not_or] at h1 <;>
        have h3 : d' ≠ l ∧ d' ≠ r := ⟨fun e => hw ⟨h1.1, h1.2, .inl e⟩, fun e => hw ⟨h1.1, h1.2, .inr e⟩⟩
      · refine ⟨?_, ?_⟩ <;> simp only <;> omega
      · exact ⟨h3.1.symm, h3.2.symm⟩
    case notInt d' s =>
      simp only [Option.some.injEq, Prod.mk.injEq] at hk
      obtain ⟨rfl, rfl⟩ := hk
      exact ⟨fun e => hw e.symm, fun e => hw e.symm⟩
  · have h0 : tabAt prog 0 = .empty := by simp only [tabAt, enter]; split_ifs <;> rfl
    rw [h0]
    exact valid_empty fr

/-- Nothing but read slots changes: the length, the places written and the jumps stay. -/
theorem C121_shape (prog : List Instr) :
    (propagate prog).length = prog.length ∧
    ∀ (j : Nat) (i : Instr), prog[j]? = some i → ∃ i', (propagate prog)[j]? = some i' ∧ defOf i' = defOf i ∧ targetOf i' = targetOf i := by
  constructor
  · have : ∀ l j T, (scan prog j T l).length = l.length := by
      intro l
      induction l with
      | nil => intro j T; rfl
      | cons i rest ih => intro j T; simp [scan, ih]
    exact this prog 0 .empty
  · intro j i hi
    refine ⟨redirect (tabAt prog j) i, by rw [propagate_get, hi]; rfl, ?_, target_redirect _ _⟩
    cases i <;> rfl

/-- A loop in which a copy, a constant and a sum are each redirected. -/
def copyLoop : List Instr :=
  [.const 1 0, .const 6 1, .branch .lt 1 0 10, .const 2 1, .op .add 3 1 2, .const 4 1, .op .add 5 4 1,
    .move 7 5, .move 1 7, .jump 2, .ret 1]

/-- The hypothesis holds of it, reads are redirected, and it counts to 10. -/
example : (∀ i ∈ propagate copyLoop, ¬ WritesOperand i) ∧
    propagate copyLoop =
      [.const 1 0, .const 6 1, .branch .lt 1 0 10, .const 2 1, .op .add 3 1 2, .const 4 1, .op .add 5 2 1,
        .move 7 3, .move 1 3, .jump 2, .ret 1] ∧
    refRun copyLoop 200 0 (fun _ => 10) = .value 10 := by
  have h : propagate copyLoop =
      [.const 1 0, .const 6 1, .branch .lt 1 0 10, .const 2 1, .op .add 3 1 2, .const 4 1, .op .add 5 2 1,
        .move 7 3, .move 1 3, .jump 2, .ret 1] := by decide +kernel
  refine ⟨?_, h, by decide +kernel⟩
  rw [h]
  simp [WritesOperand]

/-- Removing what nothing reads keeps the exact result. -/
theorem C121_trim (P : Prims) (removable : Nat → Bool) (m : Nat) (prog : List Instr) (fr : Nat → Int) (n : Int)
    (h : Exact P prog 0 fr n) : Exact P (trim removable m prog) 0 fr n := by
  induction m generalizing prog with
  | zero => exact h
  | succ m ih =>
    unfold trim
    split
    · exact h
    · next idx hidx =>
      apply ih
      obtain ⟨hlt, hvic, _⟩ := List.findIdx?_eq_some_iff_getElem.1 hidx
      obtain ⟨d, h1, h2⟩ := victim_of hvic
      have := exact_remove P prog idx d prog[idx] (fun _ => True)
        (List.getElem?_eq_getElem hlt) h1 trivial (fun pc i _ hi => h2 i (List.mem_of_getElem? hi))
        (fun _ _ _ _ => .inr ⟨trivial, fun _ _ => trivial⟩) 0 fr fr n h (fun _ _ => rfl)
      simpa [shiftTo] using this

/-- Removing what is written again before it is read keeps the exact result, also where a jump lands between
the two writes. -/
theorem C121_sweep (P : Prims) (removable : Nat → Bool) (m : Nat) (prog : List Instr) (fr : Nat → Int) (n : Int)
    (h : Exact P prog 0 fr n) : Exact P (sweep removable m prog) 0 fr n := by
  induction m generalizing prog with
  | zero => exact h
  | succ m ih =>
    unfold sweep
    split
    · exact h
    · next idx hidx =>
      apply ih
      obtain ⟨v, hv, hov⟩ := firstOverwritten_of hidx
      obtain ⟨d, h1, h2⟩ := overwritten_of hov
      have hcons : ∀ (pc : Nat) (i : Instr), prog[pc]? = some i → prog.drop pc = i :: prog.drop (pc + 1) := by
        intro pc i hi
        obtain ⟨hlt, rfl⟩ := List.getElem?_eq_some_iff.1 hi
        exact List.drop_eq_getElem_cons hlt
      have := exact_remove P prog idx d v (fun pc => rewritten d (prog.drop pc) = true) hv h1 h2
        (fun pc i hD hi => (rewritten_cons (hcons pc i hi ▸ hD)).1)
        (fun pc i hD hi => by
          rcases (rewritten_cons (hcons pc i hi ▸ hD)).2 with h3 | ⟨h3, h4⟩
          · exact .inl h3
          · exact .inr ⟨h4, fun t ht => by rw [h3] at ht; simp at ht⟩) 0 fr fr n h (fun _ _ => rfl)
      simpa [shiftTo] using this

/-- The loops of the second and third phase run until nothing is left to remove: as many turns as the program
is long are enough. -/
theorem C121_done (removable : Nat → Bool) (prog : List Instr) :
    (trim removable prog.length prog).findIdx? (victim removable (trim removable prog.length prog)) = none ∧
    firstOverwritten removable (sweep removable prog.length prog) = none := by
  have hlen : ∀ (p : List Instr) (idx : Nat), idx < p.length → (removeAt p idx).length + 1 = p.length := by
    intro p idx h
    simp only [removeAt, List.length_map, List.length_eraseIdx, if_pos h]
    omega
  constructor
  · have : ∀ (m : Nat) (p : List Instr), p.length ≤ m →
        (trim removable m p).findIdx? (victim removable (trim removable m p)) = none := by
      intro m
      induction m with
      | zero => intro p hp; simp [List.length_eq_zero_iff.1 (Nat.le_zero.1 hp), trim]
      | succ m ih =>
        intro p hp
        unfold trim
        split
        · assumption
        · next idx hidx =>
          obtain ⟨hlt, _⟩ := List.findIdx?_eq_some_iff_getElem.1 hidx
          exact ih _ (by have := hlen p idx hlt; omega)
    exact this _ _ le_rfl
  · have : ∀ (m : Nat) (p : List Instr), p.length ≤ m → firstOverwritten removable (sweep removable m p) = none := by
      intro m
      induction m with
      | zero => intro p hp; simp [List.length_eq_zero_iff.1 (Nat.le_zero.1 hp), sweep, firstOverwritten]
      | succ m ih =>
        intro p hp
        unfold sweep
        split
        · assumption
        · next idx hidx =>
          obtain ⟨v, hv, _⟩ := firstOverwritten_of hidx
          obtain ⟨hlt, _⟩ := List.getElem?_eq_some_iff.1 hv
          exact ih _ (by have := hlen p idx hlt; omega)
    exact this _ _ le_rfl

/-- After the pass: given the fuel, its result returns the word the program returns, or leaves to the
interpreter; it returns nothing else.  Partial as above. -/
theorem C121_pass_partial (P : Prims) (removable : Nat → Bool) (prog : List Instr)
    (hp : ∀ i ∈ propagate prog, ¬ WritesOperand i) (hk : ShiftsOk prog) (fuel : Nat) (fr : Nat → BitVec 64)
    (w : BitVec 64) (h : refRun prog fuel 0 fr = .value w) :
    ∃ fuel', ∀ f, fuel' ≤ f → refRun (copyPass removable prog) f 0 fr = .exit ∨
      refRun (copyPass removable prog) f 0 fr = .value w := by
  rw [← C121_propagate_partial prog hp] at h
  have h1 := C120_run P _ (shifts_propagate hk) fuel 0 fr w h
  obtain ⟨f0, hf⟩ := C120_run_or_exit P _ (shifts_sweep _ (shifts_trim _ (shifts_propagate hk))) 0 fr _
    (C121_sweep P removable _ _ _ _ (C121_trim P removable (propagate prog).length _ _ _ h1))
  refine ⟨f0, fun f hle => ?_⟩
  rcases hf f hle with h2 | ⟨u, h2, h3⟩
  · exact .inl h2
  · exact .inr (h2.trans (by rw [BitVec.eq_of_toInt_eq h3]))

/-- On the loop, with slots 2 and up as scratch, four instructions go and the jumps move with the rest. -/
example : copyPass (fun d => decide (2 ≤ d)) copyLoop =
      [.const 1 0, .branch .lt 1 0 6, .const 2 1, .op .add 3 1 2, .move 1 3, .jump 1, .ret 1] ∧
    refRun (copyPass (fun d => decide (2 ≤ d)) copyLoop) 200 0 (fun _ => 10) = .value 10 ∧
    ShiftsOk copyLoop := by
  refine ⟨by decide +kernel, by decide +kernel, ?_⟩
  intro d l k h
  simp [copyLoop] at h

/-- A slot that is read, and written twice before: the first write goes, although a jump lands between. -/
example : sweep (fun d => decide (1 ≤ d)) 6
      [.branch .lt 0 1 2, .op .add 2 0 0, .move 3 0, .const 2 5, .op .add 4 2 3, .ret 4] =
      [.branch .lt 0 1 1, .move 3 0, .const 2 5, .op .add 4 2 3, .ret 4] := by
  decide +kernel

/-- The same with a jump before the second write: the first stays. -/
example : sweep (fun d => decide (1 ≤ d)) 5 [.const 2 5, .branch .lt 0 1 3, .const 2 7, .ret 2] =
      [.const 2 5, .branch .lt 0 1 3, .const 2 7, .ret 2] := by
  decide +kernel

/-- A slot that is never written again is left to the second phase. -/
example : sweep (fun d => decide (1 ≤ d)) 2 [.const 2 5, .ret 0] = [.const 2 5, .ret 0] ∧
    trim (fun d => decide (1 ≤ d)) 2 [.const 2 5, .ret 0] = [.ret 0] := by
  decide +kernel

/-- `i := i + 1; t := i + 1; return t`, with 1 in slot 1. -/
def twoIncrements : List Instr := [.const 1 1, .op .add 0 0 1, .op .add 2 0 1, .ret 2]

/-- After `i := i + 1` the pass remembers that `i + 1` is in `i`, and gives `i` for the next `i + 1`: from
10 the program returns 12, the result of the pass 11. -/
theorem C121_increment_fails :
    refRun twoIncrements 4 0 (fun _ => 10) = .value 12 ∧
    refRun (propagate twoIncrements) 4 0 (fun _ => 10) = .value 11 ∧
    refRun (copyPass (fun d => decide (1 ≤ d)) twoIncrements) 4 0 (fun _ => 10) = .value 11 := by
  refine ⟨?_, ?_, ?_⟩ <;> decide +kernel

/-- It need not be written so: the copy `t := i; i := t + 1` becomes such an increment. -/
theorem C121_copy_fails :
    (∀ i ∈ [Instr.const 1 1, .move 3 0, .op .add 0 3 1, .op .add 2 0 1, .ret 2], ¬ WritesOperand i) ∧
    refRun [.const 1 1, .move 3 0, .op .add 0 3 1, .op .add 2 0 1, .ret 2] 5 0 (fun _ => 10) = .value 12 ∧
    refRun (propagate [.const 1 1, .move 3 0, .op .add 0 3 1, .op .add 2 0 1, .ret 2]) 5 0 (fun _ => 10) = .value 11 := by
  refine ⟨by simp [WritesOperand], ?_, ?_⟩ <;> decide +kernel

end Verif.Props
