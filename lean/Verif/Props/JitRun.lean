import Verif.Lang.JitRun
import Verif.Props.Strength

/-!
# C120, whole runs: an integer program in the JIT returns what exact arithmetic returns, or leaves
-/
namespace Verif.Props

open Verif.Lang Verif.Lang.Strength

/-- The interpreter's operation on two integers, as a number (truth values are 1 and 0). -/
def exactOp (P : Prims) (o : MOp) (x y : Int) : Option Int :=
  match applyOp P (strOp o) (.int x) (.int y) with
  | .ok (.int n) => some n
  | .ok (.bool b) => some (if b then 1 else 0)
  | _ => none

/-- A frame of unbounded integers with one slot changed. -/
def exactPut (fr : Nat → Int) (d : Nat) (n : Int) : Nat → Int := fun i => if i = d then n else fr i

/-- `Exact P prog pc fr n`: from `pc` with the frame `fr` the program returns `n`, its slots being
integers without bound and its operations the interpreter's. -/
inductive Exact (P : Prims) (prog : List Instr) : Nat → (Nat → Int) → Int → Prop where
  | const {pc fr n d v} : prog[pc]? = some (.const d v) → Exact P prog (pc + 1) (exactPut fr d v.toInt) n → Exact P prog pc fr n
  | move {pc fr n d s} : prog[pc]? = some (.move d s) → Exact P prog (pc + 1) (exactPut fr d (fr s)) n → Exact P prog pc fr n
  | op {pc fr n o d l r z} : prog[pc]? = some (.op o d l r) → exactOp P o (fr l) (fr r) = some z →
      Exact P prog (pc + 1) (exactPut fr d z) n → Exact P prog pc fr n
  | shift {pc fr n d l k} : prog[pc]? = some (.shift d l k) →
      Exact P prog (pc + 1) (exactPut fr d ((fr l).tdiv (2 ^ k))) n → Exact P prog pc fr n
  | notInt {pc fr n d s} : prog[pc]? = some (.notInt d s) → Exact P prog (pc + 1) (exactPut fr d (-fr s - 1)) n → Exact P prog pc fr n
  | jump {pc fr n t} : prog[pc]? = some (.jump t) → Exact P prog t fr n → Exact P prog pc fr n
  | ifFalse {pc fr n c t} : prog[pc]? = some (.jumpIfFalse c t) →
      Exact P prog (if fr c = 0 then t else pc + 1) fr n → Exact P prog pc fr n
  | ifTrue {pc fr n c t} : prog[pc]? = some (.jumpIfTrue c t) →
      Exact P prog (if fr c = 0 then pc + 1 else t) fr n → Exact P prog pc fr n
  | branch {pc fr n c l r t z} : prog[pc]? = some (.branch c l r t) → exactOp P c (fr l) (fr r) = some z →
      Exact P prog (if z = 0 then t else pc + 1) fr n → Exact P prog pc fr n
  | ret {pc fr s} : prog[pc]? = some (.ret s) → Exact P prog pc fr (fr s)

/-- The shifts of a program are those the compiler emits. -/
def ShiftsOk (prog : List Instr) : Prop := ∀ d l k, .shift d l k ∈ prog → k ≤ 62

theorem exactOp_of (P : Prims) {o : MOp} {a b w : BitVec 64} (h : refOp o a b = some w) :
    exactOp P o a.toInt b.toInt = some w.toInt := by
  obtain ⟨v, hv, hs⟩ := C120_jit P o a b w h
  unfold strWord at hv
  unfold exactOp
  rw [hv]
  cases v <;> simp only [strStands] at hs
  · rw [hs]
  · next c => subst hs; cases c <;> rfl

theorem exactPut_eq (fr : Nat → BitVec 64) (d : Nat) (w : BitVec 64) :
    (fun i => (put fr d w i).toInt) = exactPut (fun i => (fr i).toInt) d w.toInt := by
  funext i
  simp only [put, exactPut]
  split <;> rfl

theorem toInt_zero_iff (w : BitVec 64) : w.toInt = 0 ↔ w = 0 :=
  ⟨fun h => BitVec.eq_of_toInt_eq (by simpa using h), fun h => by simp [h]⟩

theorem toInt_compl (w : BitVec 64) : (~~~w).toInt = -w.toInt - 1 := by
  rw [BitVec.toInt_not, BitVec.toInt_eq_toNat_bmod]
  have := w.isLt
  simp only [Int.bmod]
  split_ifs <;> omega

/-- A word the JIT returns is what the program returns with unbounded integers. -/
theorem C120_run (P : Prims) (prog : List Instr) (hk : ShiftsOk prog) (fuel pc : Nat)
    (fr : Nat → BitVec 64) (w : BitVec 64) (h : refRun prog fuel pc fr = .value w) :
    Exact P prog pc (fun i => (fr i).toInt) w.toInt := by
  induction fuel generalizing pc fr with
  | zero =>
    unfold refRun at h
    split at h <;> simp at h
  | succ f ih =>
    unfold refRun at h
    split at h
    · simp at h
    · next i hi =>
      simp only at h
      cases i with
      | const d v => exact .const hi (by rw [← exactPut_eq]; exact ih _ _ h)
      | move d s => exact .move hi (by rw [← exactPut_eq]; exact ih _ _ h)
      | op o d l r =>
        simp only [stepAt] at h
        cases e : refOp o (fr l) (fr r) with
        | none => simp [e] at h
        | some z =>
          simp only [e] at h
          exact .op hi (exactOp_of P e) (by rw [← exactPut_eq]; exact ih _ _ h)
      | shift d l k =>
        refine .shift hi ?_
        rw [← C120_shift _ k (hk d l k (List.mem_of_getElem? hi)), ← exactPut_eq]
        exact ih _ _ h
      | notInt d s =>
        refine .notInt hi ?_
        rw [← toInt_compl, ← exactPut_eq]
        exact ih _ _ h
      | jump t => exact .jump hi (ih _ _ h)
      | jumpIfFalse c t =>
        refine .ifFalse hi ?_
        simp only [stepAt] at h
        simp only [toInt_zero_iff]
        split_ifs at h ⊢ <;> exact ih _ _ h
      | jumpIfTrue c t =>
        refine .ifTrue hi ?_
        simp only [stepAt] at h
        simp only [toInt_zero_iff]
        by_cases e : fr c = 0
        · rw [if_neg (by simpa using e)] at h; rw [if_pos e]; exact ih _ _ h
        · rw [if_pos e] at h; rw [if_neg e]; exact ih _ _ h
      | branch c l r t =>
        simp only [stepAt] at h
        cases e : refOp c (fr l) (fr r) with
        | none => simp [e] at h
        | some z =>
          simp only [e] at h
          refine .branch hi (exactOp_of P e) ?_
          simp only [toInt_zero_iff]
          by_cases e : z = 0
          · rw [if_neg (by simpa using e)] at h; rw [if_pos e]; exact ih _ _ h
          · rw [if_pos e] at h; rw [if_neg e]; exact ih _ _ h
      | ret s =>
        simp only [stepAt, End.value.injEq] at h
        subst h
        exact .ret hi

/-- A program that returns `n` with unbounded integers, given the fuel, returns it in the JIT or leaves
at an operation; it returns nothing else. -/
theorem C120_run_or_exit (P : Prims) (prog : List Instr) (hk : ShiftsOk prog) (pc : Nat)
    (fr : Nat → BitVec 64) (n : Int) (h : Exact P prog pc (fun i => (fr i).toInt) n) :
    ∃ fuel, ∀ f, fuel ≤ f → refRun prog f pc fr = .exit ∨ ∃ w, refRun prog f pc fr = .value w ∧ w.toInt = n := by
  generalize hF : (fun i => (fr i).toInt) = F at h
  -- going on after one instruction
  have go : ∀ {pc pc' : Nat} {fr fr' : Nat → BitVec 64} {i : Instr} {n : Int}, prog[pc]? = some i →
      stepAt i pc fr = .next pc' fr' →
      (∃ fuel, ∀ f, fuel ≤ f → refRun prog f pc' fr' = .exit ∨ ∃ w, refRun prog f pc' fr' = .value w ∧ w.toInt = n) →
      ∃ fuel, ∀ f, fuel ≤ f → refRun prog f pc fr = .exit ∨ ∃ w, refRun prog f pc fr = .value w ∧ w.toInt = n := by
    intro pc pc' fr fr' i n hi hs ⟨m, hm⟩
    refine ⟨m + 1, fun f hf => ?_⟩
    obtain ⟨g, rfl⟩ : ∃ g, f = g + 1 := ⟨f - 1, by omega⟩
    have : refRun prog (g + 1) pc fr = refRun prog g pc' fr' := by
      rw [refRun]; simp only [hi, hs]
    rw [this]
    exact hm g (by omega)
  have stop : ∀ {pc : Nat} {fr : Nat → BitVec 64} {i : Instr} {n : Int}, prog[pc]? = some i →
      stepAt i pc fr = .done .exit →
      ∃ fuel, ∀ f, fuel ≤ f → refRun prog f pc fr = .exit ∨ ∃ w, refRun prog f pc fr = .value w ∧ w.toInt = n := by
    intro pc fr i n hi hs
    refine ⟨1, fun f hf => .inl ?_⟩
    obtain ⟨g, rfl⟩ : ∃ g, f = g + 1 := ⟨f - 1, by omega⟩
    rw [refRun]; simp only [hi, hs]
  induction h generalizing fr with
  | const hi _ ih => subst hF; exact go hi rfl (ih _ (exactPut_eq _ _ _))
  | move hi _ ih => subst hF; exact go hi rfl (ih _ (exactPut_eq _ _ _))
  | @op pc _ _ o d l r z hi hz _ ih =>
    subst hF
    cases e : refOp o (fr l) (fr r) with
    | none => exact stop hi (by simp [stepAt, e])
    | some w =>
      have := (exactOp_of P e).symm.trans hz
      injection this with this
      exact go hi (by simp only [stepAt, e]; rfl) (ih _ (by rw [exactPut_eq, this]))
  | @shift pc _ _ d l k hi _ ih =>
    subst hF
    exact go hi rfl (ih _ (by rw [exactPut_eq, C120_shift _ k (hk d l k (List.mem_of_getElem? hi))]))
  | notInt hi _ ih => subst hF; exact go hi rfl (ih _ (by rw [exactPut_eq, toInt_compl]))
  | jump hi _ ih => subst hF; exact go hi rfl (ih _ rfl)
  | @ifFalse pc _ _ c t hi _ ih =>
    subst hF
    refine go hi (pc' := if (fr c).toInt = 0 then t else pc + 1) (fr' := fr) ?_ (ih _ rfl)
    simp only [stepAt, toInt_zero_iff]; split_ifs <;> rfl
  | @ifTrue pc _ _ c t hi _ ih =>
    subst hF
    refine go hi (pc' := if (fr c).toInt = 0 then pc + 1 else t) (fr' := fr) ?_ (ih _ rfl)
    simp only [stepAt, toInt_zero_iff, ne_eq, ite_not]; split_ifs <;> rfl
  | @branch pc _ _ c l r t z hi hz _ ih =>
    subst hF
    cases e : refOp c (fr l) (fr r) with
    | none => exact stop hi (by simp [stepAt, e])
    | some w =>
      have := (exactOp_of P e).symm.trans hz
      injection this with this
      refine go hi (pc' := if z = 0 then t else pc + 1) (fr' := fr) ?_ (ih _ rfl)
      rw [← this]
      simp only [stepAt, e, toInt_zero_iff, ne_eq, ite_not]; split_ifs <;> rfl
  | @ret pc _ s hi =>
    subst hF
    refine ⟨1, fun f hf => .inr ⟨fr s, ?_, rfl⟩⟩
    obtain ⟨g, rfl⟩ : ∃ g, f = g + 1 := ⟨f - 1, by omega⟩
    rw [refRun]; simp only [hi, stepAt]

/-- The sum of the numbers up to slot 0, halved: a loop with a branch, two sums, a jump and a shift. -/
def sumLoop : List Instr :=
  [.const 1 0, .const 2 1, .const 3 1, .branch .le 2 0 7, .op .add 1 1 2, .op .add 2 2 3, .jump 3, .shift 4 1 1, .ret 4]

/-- The hypotheses hold of the loop: it returns 27 for 10, and leaves on a sum that does not fit. -/
example : ShiftsOk sumLoop ∧ refRun sumLoop 100 0 (fun _ => 10) = .value 27 ∧
    refRun [.const 1 1, .op .add 1 0 1, .ret 1] 5 0 (fun _ => BitVec.intMax 64) = .exit := by
  refine ⟨?_, by decide +kernel, by decide +kernel⟩
  intro d l k h
  simp [sumLoop] at h
  omega

end Verif.Props
