import Verif.Lang.FuseBranch

/-!
# C122: a comparison fused with the jump after it jumps where the two do
-/
namespace Verif.Props

open Verif.Lang Verif.Lang.Strength Verif

/-- On words: the comparison of `l` and `r` into `d` and the jump on `d` after it go to the target exactly where the
fused branch does, and change nothing but `d`. -/
theorem C122_words_partial (c : Cmp) (ifTrue : Bool) (d l r t pc : Nat) (fr : Nat → BitVec 64) :
    ∃ fr1, stepAt (.op c.op d l r) pc fr = .next (pc + 1) fr1 ∧ (∀ s, s ≠ d → fr1 s = fr s) ∧
      ((stepAt (if ifTrue then .jumpIfTrue d t else .jumpIfFalse d t) (pc + 1) fr1 = .next t fr1 ∧
          stepAt (.branch (fusedCmp c ifTrue).op l r t) pc fr = .next t fr) ∨
       (stepAt (if ifTrue then .jumpIfTrue d t else .jumpIfFalse d t) (pc + 1) fr1 = .next (pc + 2) fr1 ∧
          stepAt (.branch (fusedCmp c ifTrue).op l r t) pc fr = .next (pc + 1) fr)) := by
  have hb : ∀ b : Bool, (Strength.bit b = 0) ↔ b = false := by decide
  have key : ∃ b, refOp c.op (fr l) (fr r) = some (Strength.bit b) ∧
      refOp c.negated.op (fr l) (fr r) = some (Strength.bit (!b)) := by
    cases c
    case lt => exact ⟨_, rfl, by simp only [Cmp.negated, Cmp.op, refOp]; rw [BitVec.sle_eq_not_slt]⟩
    case gt => exact ⟨_, rfl, by simp only [Cmp.negated, Cmp.op, refOp]; rw [BitVec.sle_eq_not_slt]⟩
    case le => exact ⟨_, rfl, by simp only [Cmp.negated, Cmp.op, refOp]; rw [BitVec.sle_eq_not_slt, Bool.not_not]⟩
    case ge => exact ⟨_, rfl, by simp only [Cmp.negated, Cmp.op, refOp]; rw [BitVec.sle_eq_not_slt, Bool.not_not]⟩
    case eq => exact ⟨_, rfl, rfl⟩
    case ne => exact ⟨_, rfl, by simp only [Cmp.negated, Cmp.op, refOp, bne, Bool.not_not]⟩
  obtain ⟨b, h1, h2⟩ := key
  refine ⟨put fr d (Strength.bit b), by simp only [stepAt, h1], fun s hs => by simp only [put, if_neg hs], ?_⟩
  have hd : put fr d (Strength.bit b) d = Strength.bit b := by simp [put]
  cases ifTrue
  · simp only [fusedCmp, Bool.false_eq_true, if_false, stepAt, h1, hd]
    cases b
    · exact .inl ⟨if_pos ((hb _).2 rfl), if_neg (by simpa using (hb false).2 rfl)⟩
    · exact .inr ⟨if_neg (by rw [hb]; simp), if_pos (by rw [Ne, hb]; simp)⟩
  · simp only [fusedCmp, if_true, stepAt, h2, hd]
    cases b
    · exact .inr ⟨if_neg (by simpa using (hb false).2 rfl), if_pos (by rw [Ne, hb]; simp)⟩
    · exact .inl ⟨if_pos (by rw [Ne, hb]; simp), if_neg (by simpa using (hb false).2 rfl)⟩

/-- On floats: the two agree unless the jump is `JumpIfTrue`, an operand is no number and the comparison is one of
the four orders.  Partial: so not everywhere (`C122_nan_fails`). -/
theorem C122_floats_partial (c : Cmp) (ifTrue : Bool) (a b : Nat)
    (h : ifTrue = false ∨ c = .eq ∨ c = .ne ∨ (Num.fIsNan a = false ∧ Num.fIsNan b = false)) :
    branchJumps (fusedCmp c ifTrue) a b = pairJumps c ifTrue a b := by
  rcases h with rfl | rfl | rfl | ⟨ha, hb⟩
  · simp only [branchJumps, pairJumps, fusedCmp, Bool.false_eq_true, if_false]
    cases c.holds (floatOrder a b) <;> rfl
  · cases ifTrue <;> simp [branchJumps, pairJumps, fusedCmp, Cmp.negated, Cmp.holds]
  · cases ifTrue <;> simp [branchJumps, pairJumps, fusedCmp, Cmp.negated, Cmp.holds]
  · have : ∃ o, floatOrder a b = some o := ⟨_, by simp only [floatOrder, ha, hb]; rfl⟩
    obtain ⟨o, ho⟩ := this
    simp only [branchJumps, pairJumps, ho]
    revert c ifTrue o
    have : ∀ (c : Cmp) (ifTrue : Bool) (o : Ordering),
        (!(fusedCmp c ifTrue).holds (some o)) = (c.holds (some o) == ifTrue) := by
      intro c ifTrue o
      cases c <;> cases ifTrue <;> cases o <;> rfl
    intro c ifTrue o _
    exact this c ifTrue o

/-- With an operand that is no number, `a < b` and its like are false, so `JumpIfTrue` stays; the fused branch
jumps, whatever the other operand. -/
theorem C122_nan_fails (c : Cmp) (a b : Nat) (hc : c ≠ .eq ∧ c ≠ .ne) (h : Num.fIsNan a = true ∨ Num.fIsNan b = true) :
    pairJumps c true a b = false ∧ branchJumps (fusedCmp c true) a b = true := by
  have ho : floatOrder a b = none := by
    simp only [floatOrder]
    rcases h with h | h <;> simp [h]
  simp only [pairJumps, branchJumps, ho]
  cases c
  case eq => exact absurd rfl hc.1
  case ne => exact absurd rfl hc.2
  all_goals exact ⟨rfl, rfl⟩

/-- 1.0 and 2.0 are numbers, and 1.0 < 2.0; the bits 0x7FF8000000000000 are no number. -/
example : Num.fIsNan 0x3FF0000000000000 = false ∧ Num.fIsNan 0x4000000000000000 = false ∧
    pairJumps .lt true 0x3FF0000000000000 0x4000000000000000 = true ∧
    pairJumps .lt true 0x4000000000000000 0xC000000000000000 = false ∧
    pairJumps .lt true 0xC000000000000000 0xBFF0000000000000 = true ∧
    pairJumps .eq true 0x8000000000000000 0 = true ∧
    Num.fIsNan 0x7FF8000000000000 = true ∧
    pairJumps .lt true 0x7FF8000000000000 0x3FF0000000000000 = false ∧
    branchJumps (fusedCmp .lt true) 0x7FF8000000000000 0x3FF0000000000000 = true := by
  decide +kernel

end Verif.Props
