import Verif.Lang.EncoderSound
import Verif.Props.Fold

/-!
# C119: the translation validator's encoder says what the interpreter does

The validator turns a program into solver terms: one for each value the program prints, and one
that is true when the program fails.  The terms should stand for what the interpreter does, and a
report of agreement should mean that they do.
-/
namespace Verif.Props

open Verif.Lang Verif.Lang.Tv

/-- **C119** (in range).  The encoder covers every typed straight-line program.  If no operator
leaves 64 bits, the error term is true exactly when the interpreter fails, the failure is a division
by zero, and the lines printed are the displayed outputs: all of them when the run succeeds, the
first ones when it fails.
Missing: programs that leave 64 bits, divisions the interpreter skips in `and` and `or`, and `and`,
`or` and `not` on integers, where it fails below; pipes and tasks, which are not modelled. -/
theorem C119_encoder_partial (P : Prims) (n : Nat) {p : List Stmt} (h : Straight (fun _ => none) p) :
    ∃ s, encode p = some s ∧ (Fits P n p →
      ((run P n p).error = if truth s.errored then some .divZero else none) ∧
      ((run P n p).error = none → (run P n p).output = s.outputs.map fun v => disp P v.value) ∧
      (run P n p).output <+: s.outputs.map fun v => disp P v.value) := by
  obtain ⟨S, extra, h1, h2, hR⟩ := encSs_agree P n h {} {} (fun x t hx => by cases hx)
    (fun x v hx => by cases hx) ⟨rfl, rfl, rfl⟩ rfl
  refine ⟨⟨S.outputs, S.errored⟩, by simp only [encode, h1, Option.map_some], fun hf => ?_⟩
  have h2' : S.outputs = extra := by simpa using h2
  rcases hR with hR | ⟨s', hp, he, ho⟩ | ⟨s', pre, hp, he, hpre, ho⟩
  · exact absurd (by simp only [outcome]; rw [hR]) hf
  · have ho' : (run P n p).output = extra.map fun v => disp P v.value := by
      simp only [run, hp, outcome]; rw [ho]; rfl
    refine ⟨?_, fun _ => ?_, ?_⟩
    · simp only [run, hp, outcome, he]; rfl
    · rw [ho', h2']
    · rw [ho', h2']
      exact List.prefix_refl _
  · have ho' : (run P n p).output = pre.map fun v => disp P v.value := by
      simp only [run, hp, outcome]; rw [ho]; rfl
    refine ⟨?_, fun hn => ?_, ?_⟩
    · simp only [run, hp, outcome, he]; rfl
    · simp only [run, hp, outcome] at hn; cases hn
    · rw [ho', h2']
      exact hpre.map _

/-- The lines that `compareLines` accepts. -/
private theorem compareLines_agrees {valid : Term → Bool} (hv : Decides valid) {P : Prims}
    {read : Text → Option Expected} (hr : Reads P read) : ∀ vs : List SymVal,
    compareLines valid read vs (vs.map fun v => disp P v.value) = .agrees
  | [] => rfl
  | .int e :: vs => by
    have h := hr.2 (word e).toInt (by have := BitVec.le_toInt (word e); simpa using this)
      (by have := BitVec.toInt_lt (x := word e); simpa using this)
    simp only [List.map_cons, compareLines, SymVal.value, disp, h, matchTerm, hv _]
    simp only [truth, word, BitVec.ofInt_toInt, beq_self_eq_true, if_true]
    exact compareLines_agrees hv hr vs
  | .bool e :: vs => by
    have h := hr.1 (truth e)
    simp only [List.map_cons, compareLines, SymVal.value, disp, h, matchTerm, hv _]
    simp only [truth, beq_self_eq_true, if_true]
    exact compareLines_agrees hv hr vs

/-- **C119** (no false alarm).  With a solver that decides closed terms, the validator reports
agreement on every typed straight-line program whose operators stay within 64 bits. -/
theorem C119_no_alarm (P : Prims) (n : Nat) {p : List Stmt} (h : Straight (fun _ => none) p)
    (hf : Fits P n p) {valid : Term → Bool} (hv : Decides valid) {read : Text → Option Expected}
    (hr : Reads P read) : checkEncoder valid read p (run P n p) = .agrees := by
  obtain ⟨s, hs, hh⟩ := C119_encoder_partial P n h
  obtain ⟨h1, h2, _⟩ := hh hf
  simp only [checkEncoder, hs, checkAgainst]
  cases he : truth s.errored with
  | true =>
    rw [he] at h1
    simp only [h1, if_true, hv s.errored, he]
  | false =>
    rw [he] at h1
    simp only [Bool.false_eq_true, if_false] at h1
    simp only [h1, hv (.not s.errored), truth, he, Bool.not_false, if_true, h2 h1, compareOutputs,
      List.length_map]
    exact compareLines_agrees hv hr s.outputs

/-- A printed line says what a symbolic value stands for. -/
def Says (read : Text → Option Expected) (v : SymVal) (l : Text) : Prop :=
  (∃ n : Int, read l = some (.int n) ∧ ∃ e, v = .int e ∧ word e = BitVec.ofInt 64 n) ∨
  (∃ b, read l = some (.bool b) ∧ ∃ e, v = .bool e ∧ truth e = b)

private theorem compareLines_says {valid : Term → Bool} (hv : Sound valid)
    {read : Text → Option Expected} : ∀ (vs : List SymVal) (ls : List Text), vs.length = ls.length →
    compareLines valid read vs ls = .agrees → List.Forall₂ (Says read) vs ls
  | [], [], _, _ => .nil
  | [], _ :: _, h, _ => by cases h
  | _ :: _, [], h, _ => by cases h
  | v :: vs, l :: ls, hl, h => by
    simp only [compareLines] at h
    split at h
    · cases h
    · rename_i x hx
      split at h
      · cases h
      · rename_i t ht
        split_ifs at h with hval
        have htr := hv _ hval
        refine .cons ?_ (compareLines_says hv vs ls (by simpa using hl) h)
        cases v <;> cases x <;> simp only [matchTerm, Option.some.injEq, reduceCtorEq] at ht <;> subst ht
        · rename_i e n
          exact .inl ⟨n, hx, e, rfl, by simpa [truth, word] using htr⟩
        · rename_i e b
          exact .inr ⟨b, hx, e, rfl, by simpa [truth] using htr⟩

/-- **C119** (agreement of a finished run).  With a solver that proves only what is true, if the
validator reports agreement on a program, whatever it is, and the run succeeded, then the error term
is false and the lines printed are, one for one, what the output terms stand for.  If the run failed,
the error term is true. -/
theorem C119_report {valid : Term → Bool} (hv : Sound valid) {read : Text → Option Expected}
    {p : List Stmt} {o : Outcome} (h : checkEncoder valid read p o = .agrees) :
    ∃ s, encode p = some s ∧ (truth s.errored = true ↔ o.error ≠ none) ∧
      (o.error = none → List.Forall₂ (Says read) s.outputs o.output) := by
  simp only [checkEncoder] at h
  split at h
  · cases h
  · rename_i s hs
    refine ⟨s, hs, ?_⟩
    simp only [checkAgainst] at h
    split at h
    · rename_i e he
      split_ifs at h with hval
      rw [he]
      exact ⟨⟨fun _ => by simp, fun _ => hv _ hval⟩, fun h => by cases h⟩
    · rename_i he
      split_ifs at h with hval
      have hf : truth s.errored = false := by simpa [truth] using hv _ hval
      simp only [compareOutputs] at h
      split_ifs at h with hlen
      rw [he, hf]
      exact ⟨by simp, fun _ => compareLines_says hv _ _ hlen h⟩

/-! ## Concrete cases -/

/-- An integer literal. -/
def tvInt (n : Int) : Expr := .lit (.num n)

/-- `Let x be 7. Let y be x * x - 9. Set x to y / x. Show x. Show (x less than y) and not (x equals 5).
Show y mod (x - 5).` -/
def tvProgram : List Stmt :=
  [.letS 0 false true (tvInt 7),
   .letS 1 false false (.bin .sub (.bin .mul (.var 0) (.var 0)) (tvInt 9)),
   .set 0 (.bin .div (.var 1) (.var 0)),
   .showS (.var 0),
   .showS (.bin .and (.bin .lt (.var 0) (.var 1)) (.not (.bin .eq (.var 0) (tvInt 5)))),
   .showS (.bin .mod (.var 1) (.bin .sub (.var 0) (tvInt 5)))]

/-- Display that reads back: a truth value is one character, an integer is its digits in unary with
a sign. -/
def unaryP : Prims := { sampleP with
  display := fun v => match v with
    | .bool b => [if b then 't' else 'f']
    | .int n => (if n < 0 then '-' else '+') :: List.replicate n.natAbs '1'
    | _ => [] }

/-- The reader of that display. -/
def unaryRead : Text → Option Expected
  | ['t'] => some (.bool true)
  | ['f'] => some (.bool false)
  | '-' :: l => some (.int (-(l.length : Int)))
  | '+' :: l => some (.int l.length)
  | _ => none

/-- The reader reads what is displayed. -/
theorem unary_reads : Reads unaryP unaryRead := by
  refine ⟨fun b => by cases b <;> rfl, fun n _ _ => ?_⟩
  simp only [unaryP]
  split_ifs with h
  · simp only [unaryRead, List.length_replicate]
    congr 2; omega
  · simp only [unaryRead, List.length_replicate]
    congr 2; omega

private theorem tvProgram_straight : Straight (fun _ => none) tvProgram := by
  have hn : ∀ {Γ : Sym → Option Ty} (n : Int), -100 ≤ n → n ≤ 100 → HasTy Γ (tvInt n) .int :=
    fun n h1 h2 => .num (by omega) (by omega)
  refine .letS (hn 7 (by omega) (by omega)) (.letS (.arith (by simp) (.arith (by simp) (.var rfl) (.var rfl))
    (hn 9 (by omega) (by omega))) (.set (by simp) (.arith (by simp) (.var rfl) (.var rfl)) (.showS (.var rfl)
    (.showS (.logic (by simp) (.order (by simp) (.var rfl) (.var rfl))
      (.not (.equal (t := .int) (by simp) (.var rfl) (hn 5 (by omega) (by omega)))) (.not (.bin (by simp) (by simp) (.var _) (.lit _))))
    (.showS (.arith (by simp) (.var rfl) (.arith (by simp) (.var rfl) (hn 5 (by omega) (by omega)))) .nil)))))

/-- The program is typed and stays in range; it prints `5` and `false`, then divides by zero. -/
example : Straight (fun _ => none) tvProgram ∧ Fits unaryP 3 tvProgram ∧
    (run unaryP 3 tvProgram).error = some .divZero ∧
    (run unaryP 3 tvProgram).output = ["+11111".toList, "f".toList] :=
  ⟨tvProgram_straight, by unfold Fits; decide +kernel, by decide +kernel, by decide +kernel⟩

/-- A solver that decides closed terms. -/
example : Decides truth ∧ Sound truth := ⟨fun _ => rfl, fun _ h => h⟩

/-- Its report is agreement, and so is that on its first five statements, which succeed. -/
example : checkEncoder truth unaryRead tvProgram (run unaryP 3 tvProgram) = .agrees ∧
    checkEncoder truth unaryRead (tvProgram.take 5) (run unaryP 3 (tvProgram.take 5)) = .agrees ∧
    (run unaryP 3 (tvProgram.take 5)).error = none := by decide +kernel

/-! ## Where it fails -/

/-- Beyond 64 bits the interpreter continues with a larger integer and the encoder wraps around:
for `Show (9223372036854775807 + 1) greater than 0` the interpreter prints `true` and the encoder
says `false`. -/
theorem C119_overflow_fails (P : Prims) (n : Nat) :
    (run P n [.showS (.bin .gt (.bin .add (tvInt (2 ^ 63 - 1)) (tvInt 1)) (tvInt 0))]).output
      = [P.display (.bool true)] ∧
    (encode [.showS (.bin .gt (.bin .add (tvInt (2 ^ 63 - 1)) (tvInt 1)) (tvInt 0))]).map
      (fun s => s.outputs.map (·.value)) = some [.bool false] := by
  constructor
  · rfl
  · rfl

/-- A division the interpreter does not reach counts as a failure for the encoder:
`Show false and (1 / 0 equals 0)` prints `false`, and the error term is true. -/
theorem C119_skipped_fails (P : Prims) (n : Nat) :
    (run P n [.showS (.bin .and (.lit (.bool false)) (.bin .eq (.bin .div (tvInt 1) (tvInt 0)) (tvInt 0)))]).error
      = none ∧
    (encode [.showS (.bin .and (.lit (.bool false)) (.bin .eq (.bin .div (tvInt 1) (tvInt 0)) (tvInt 0)))]).map
      (fun s => truth s.errored) = some true := by
  constructor
  · rfl
  · rfl

/-- `and` on integers: the interpreter prints a truth value, the encoder has a bitwise result.
`Show 6 and 3` prints `true`; the encoder says `2`. -/
theorem C119_and_fails (P : Prims) (n : Nat) :
    (run P n [.showS (.bin .and (tvInt 6) (tvInt 3))]).output = [P.display (.bool true)] ∧
    (encode [.showS (.bin .and (tvInt 6) (tvInt 3))]).map (fun s => s.outputs.map (·.value))
      = some [.int 2] := by
  constructor
  · rfl
  · rfl

/-- `not` on an integer: the interpreter prints `false` for `Show not 5`, the encoder says `-6`. -/
theorem C119_not_fails (P : Prims) (n : Nat) :
    (run P n [.showS (.not (tvInt 5))]).output = [P.display (.bool false)] ∧
    (encode [.showS (.not (tvInt 5))]).map (fun s => s.outputs.map (·.value)) = some [.int (-6)] := by
  constructor
  · rfl
  · rfl

/-- A report of agreement does not cover what a failing run printed before it failed: on
`Show not 5. Show 1 / 0.` the interpreter prints `false` and fails, the encoder's first output is `-6`,
and the report is agreement, for every reader of lines. -/
theorem C119_agrees_fails (P : Prims) (n : Nat) (read : Text → Option Expected) :
    checkEncoder truth read [.showS (.not (tvInt 5)), .showS (.bin .div (tvInt 1) (tvInt 0))]
      (run P n [.showS (.not (tvInt 5)), .showS (.bin .div (tvInt 1) (tvInt 0))]) = .agrees ∧
    (run P n [.showS (.not (tvInt 5)), .showS (.bin .div (tvInt 1) (tvInt 0))]).output
      = [P.display (.bool false)] ∧
    (encode [.showS (.not (tvInt 5)), .showS (.bin .div (tvInt 1) (tvInt 0))]).map
      (fun s => s.outputs.head?.map (·.value)) = some (some (.int (-6))) := by
  refine ⟨?_, rfl, rfl⟩
  have h : (run P n [.showS (.not (tvInt 5)), .showS (.bin .div (tvInt 1) (tvInt 0))]).error
      = some .divZero := rfl
  unfold checkEncoder checkAgainst
  rw [h]
  rfl

end Verif.Props
