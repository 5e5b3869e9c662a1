import Verif.Lang.CopyProp
import Mathlib.Tactic.SplitIfs

/-!
# Copy propagation in the JIT: lemmas
-/
namespace Verif.Lang.Strength

/-- What a key computes in a frame. -/
def keyVal (fr : Nat → BitVec 64) : Key → Option (BitVec 64)
  | (some o, a, b) => refOp o (fr a) (fr b)
  | (none, a, _) => some (~~~ fr a)

/-- The maps say the truth about a frame. -/
structure Valid (T : Tab) (fr : Nat → BitVec 64) : Prop where
  root : ∀ d s, T.root d = some s → fr d = fr s
  cst : ∀ v s, T.cst v = some s → fr s = v
  val : ∀ k s, T.val k = some s → keyVal fr k = some (fr s)

theorem valid_empty (fr : Nat → BitVec 64) : Valid .empty fr :=
  ⟨fun _ _ h => by simp [Tab.empty] at h, fun _ _ h => by simp [Tab.empty] at h, fun _ _ h => by simp [Tab.empty] at h⟩

theorem Valid.src {T : Tab} {fr : Nat → BitVec 64} (h : Valid T fr) (s : Nat) : fr (T.src s) = fr s := by
  unfold Tab.src
  cases e : T.root s with
  | none => rfl
  | some r => exact (h.root s r e).symm

theorem step_redirect {T : Tab} {fr : Nat → BitVec 64} (h : Valid T fr) (i : Instr) (pc : Nat) :
    stepAt (redirect T i) pc fr = stepAt i pc fr := by
  cases i <;> simp only [redirect, stepAt, h.src]

theorem put_other {fr : Nat → BitVec 64} {d s : Nat} {w : BitVec 64} (h : s ≠ d) : put fr d w s = fr s := if_neg h
theorem put_same {fr : Nat → BitVec 64} {d : Nat} {w : BitVec 64} : put fr d w d = w := if_pos rfl

theorem keyVal_put {fr : Nat → BitVec 64} {d : Nat} {w : BitVec 64} {k : Key} (h1 : k.2.1 ≠ d) (h2 : k.2.2 ≠ d) :
    keyVal (put fr d w) k = keyVal fr k := by
  obtain ⟨o, a, b⟩ := k
  cases o <;> simp only [keyVal] <;> simp only at h1 h2 <;> rw [put_other h1]
  rw [put_other h2]

theorem Valid.kill {T : Tab} {fr : Nat → BitVec 64} (h : Valid T fr) (d : Nat) (w : BitVec 64) :
    Valid (T.kill d) (put fr d w) where
  root := fun k s e => by
    simp only [Tab.kill, Option.filter_eq_some_iff, Bool.and_eq_true, bne_iff_ne] at e
    rw [put_other e.2.1, put_other e.2.2]; exact h.root _ _ e.1
  cst := fun v s e => by
    simp only [Tab.kill, Option.filter_eq_some_iff, bne_iff_ne] at e
    rw [put_other e.2]; exact h.cst _ _ e.1
  val := fun k s e => by
    simp only [Tab.kill, Option.filter_eq_some_iff, Bool.and_eq_true, bne_iff_ne] at e
    rw [put_other e.2.2, keyVal_put e.2.1.1 e.2.1.2]; exact h.val _ _ e.1

theorem Valid.insRoot {T : Tab} {fr : Nat → BitVec 64} (h : Valid T fr) {d s : Nat} (e : fr d = fr s) :
    Valid { T with root := ins T.root d s } fr where
  root := fun k r hr => by
    simp only [ins] at hr
    split_ifs at hr with hk
    · injection hr with hr; rw [hk, ← hr]; exact e
    · exact h.root _ _ hr
  cst := h.cst
  val := h.val

theorem Valid.insCst {T : Tab} {fr : Nat → BitVec 64} (h : Valid T fr) {v : BitVec 64} {s : Nat} (e : fr s = v) :
    Valid { T with cst := ins T.cst v s } fr where
  root := h.root
  cst := fun k r hr => by
    simp only [ins] at hr
    split_ifs at hr with hk
    · injection hr with hr; rw [hk, ← hr]; exact e
    · exact h.cst _ _ hr
  val := h.val

theorem Valid.insVal {T : Tab} {fr : Nat → BitVec 64} (h : Valid T fr) {k : Key} {s : Nat}
    (e : keyVal fr k = some (fr s)) : Valid { T with val := ins T.val k s } fr where
  root := h.root
  cst := h.cst
  val := fun k' r hr => by
    simp only [ins] at hr
    split_ifs at hr with hk
    · injection hr with hr; rw [hk, ← hr]; exact e
    · exact h.val _ _ hr

theorem refOp_comm {o : MOp} (h : commutes o = true) (a b : BitVec 64) : refOp o a b = refOp o b a := by
  cases o <;> simp [commutes] at h <;> simp only [refOp]
  · rw [Int.add_comm]
  · rw [Int.mul_comm]
  · rw [BEq.comm]
  · rw [bne_comm]
  · rw [BitVec.and_comm]
  · rw [BitVec.or_comm]
  · rw [BitVec.xor_comm]

/-- An instruction with a key computes it. -/
theorem step_key {i : Instr} {k : Key} {d : Nat} (h : keyOf i = some (k, d)) (pc : Nat) (fr : Nat → BitVec 64) :
    defOf i = some d ∧ (∀ T : Tab, T.learn i = T) ∧ targetOf i = none ∧
    stepAt i pc fr = (match keyVal fr k with
      | some w => .next (pc + 1) (put fr d w)
      | none => .done .exit) := by
  cases i <;> simp only [keyOf, reduceCtorEq] at h
  case op o d' l r =>
    split_ifs at h with h1 h2 <;> simp only [Option.some.injEq, Prod.mk.injEq] at h <;> obtain ⟨rfl, rfl⟩ := h
    · refine ⟨rfl, fun _ => rfl, rfl, ?_⟩
      have : refOp o (fr (min l r)) (fr (max l r)) = refOp o (fr l) (fr r) := by
        rcases Nat.le_total l r with hl | hl
        · rw [Nat.min_eq_left hl, Nat.max_eq_right hl]
        · rw [Nat.min_eq_right hl, Nat.max_eq_left hl, refOp_comm h2]
      simp only [stepAt, keyVal, this]
      cases refOp o (fr l) (fr r) <;> rfl
    · exact ⟨rfl, fun _ => rfl, rfl, rfl⟩
  case notInt d' s =>
    simp only [Option.some.injEq, Prod.mk.injEq] at h
    obtain ⟨rfl, rfl⟩ := h
    exact ⟨rfl, fun _ => rfl, rfl, rfl⟩

/-- A step leads to a jump's target, or to the next instruction with maps that still hold. -/
theorem valid_after {T : Tab} {fr fr' : Nat → BitVec 64} {i : Instr} {pc pc' : Nat} (hv : Valid T fr)
    (hp : ∀ k d, keyOf i = some (k, d) → k.2.1 ≠ d ∧ k.2.2 ≠ d) (hs : stepAt i pc fr = .next pc' fr') :
    (pc' = pc + 1 ∧ Valid (T.after i) fr') ∨ targetOf i = some pc' := by
  cases hk : keyOf i with
  | some kd =>
    obtain ⟨k, d⟩ := kd
    obtain ⟨h1, h2, h3, h4⟩ := step_key hk pc fr
    rw [h4] at hs
    left
    cases hw : keyVal fr k with
    | none => simp [hw] at hs
    | some w =>
      simp only [hw, Step.next.injEq] at hs
      obtain ⟨rfl, rfl⟩ := hs
      refine ⟨rfl, ?_⟩
      have hkill := hv.kill d w
      have hput : keyVal (put fr d w) k = some (put fr d w d) := by
        rw [keyVal_put (hp k d hk).1 (hp k d hk).2, hw, put_same]
      unfold Tab.after
      simp only [h1, h2, hk]
      cases hh : T.val k with
      | none => exact hkill.insVal hput
      | some h =>
        simp only
        split_ifs with hne
        · refine hkill.insRoot ?_
          have := hv.val k h hh
          rw [hw] at this
          injection this with this
          rw [put_same, put_other hne, this]
        · exact hkill.insVal hput
  | none =>
    unfold Tab.after
    simp only [hk]
    cases i with
    | const d v =>
      simp only [stepAt, Step.next.injEq] at hs
      obtain ⟨rfl, rfl⟩ := hs
      refine .inl ⟨rfl, ?_⟩
      have hkill := hv.kill d v
      simp only [defOf, Tab.learn]
      split
      · next d2 h2 =>
        split_ifs with hne
        · exact hkill.insRoot (by rw [put_same, hkill.cst _ _ h2])
        · exact hkill
      · exact hkill.insCst put_same
    | move d s =>
      simp only [stepAt, Step.next.injEq] at hs
      obtain ⟨rfl, rfl⟩ := hs
      refine .inl ⟨rfl, ?_⟩
      have hkill := hv.kill d (fr s)
      show Valid ((T.kill d).learn (.move d s)) _
      unfold Tab.learn
      dsimp only
      by_cases h1 : d = s
      · rw [if_neg (by simpa using h1)]; exact hkill
      · rw [if_pos h1]
        by_cases h2 : (T.kill d).src s = d
        · rw [if_neg (by simpa using h2)]; exact hkill
        · rw [if_pos h2]
          exact hkill.insRoot (by rw [hkill.src, put_same, put_other (Ne.symm h1)])
    | op o d l r =>
      simp only [stepAt] at hs
      split at hs
      · simp only [Step.next.injEq] at hs
        obtain ⟨rfl, rfl⟩ := hs
        exact .inl ⟨rfl, hv.kill d _⟩
      · simp at hs
    | shift d l k =>
      simp only [stepAt, Step.next.injEq] at hs
      obtain ⟨rfl, rfl⟩ := hs
      exact .inl ⟨rfl, hv.kill d _⟩
    | notInt d s => simp [keyOf] at hk
    | jump t =>
      simp only [stepAt, Step.next.injEq] at hs
      exact .inr (by rw [← hs.1]; rfl)
    | jumpIfFalse c t =>
      simp only [stepAt] at hs
      split_ifs at hs <;> simp only [Step.next.injEq] at hs <;> obtain ⟨rfl, rfl⟩ := hs
      · exact .inr rfl
      · exact .inl ⟨rfl, hv⟩
    | jumpIfTrue c t =>
      simp only [stepAt] at hs
      split_ifs at hs <;> simp only [Step.next.injEq] at hs <;> obtain ⟨rfl, rfl⟩ := hs
      · exact .inr rfl
      · exact .inl ⟨rfl, hv⟩
    | branch c l r t =>
      simp only [stepAt] at hs
      split at hs
      · split_ifs at hs <;> simp only [Step.next.injEq] at hs <;> obtain ⟨rfl, rfl⟩ := hs
        · exact .inl ⟨rfl, hv⟩
        · exact .inr rfl
      · simp at hs
    | ret s => simp [stepAt] at hs

/-- The maps at a place of the program. -/
def tabAt (prog : List Instr) : Nat → Tab
  | 0 => enter prog 0 .empty
  | j + 1 => enter prog (j + 1) (match prog[j]? with
    | some i => (tabAt prog j).after (redirect (tabAt prog j) i)
    | none => .empty)

theorem scan_get (prog : List Instr) (l : List Instr) (j : Nat) (T : Tab) (hl : l = prog.drop j)
    (hT : enter prog j T = tabAt prog j) (k : Nat) :
    (scan prog j T l)[k]? = (prog[j + k]?).map (redirect (tabAt prog (j + k))) := by
  induction l generalizing j T k with
  | nil =>
    have : prog.length ≤ j := List.drop_eq_nil_iff.1 hl.symm
    rw [List.getElem?_eq_none (l := prog) (by omega)]
    rfl
  | cons i rest ih =>
    have hi : prog[j]? = some i := by
      have := congrArg (·[0]?) hl
      simpa using this.symm
    have hrest : rest = prog.drop (j + 1) := by
      rw [← List.tail_drop, ← hl]; rfl
    simp only [scan]
    cases k with
    | zero => simp only [List.getElem?_cons_zero, Nat.add_zero, hi, Option.map_some, hT]
    | succ k =>
      rw [List.getElem?_cons_succ, ih (j + 1) _ hrest (by
        simp only [tabAt, hi, hT]), show j + 1 + k = j + (k + 1) by omega]

theorem propagate_get (prog : List Instr) (k : Nat) :
    (propagate prog)[k]? = (prog[k]?).map (redirect (tabAt prog k)) := by
  have := scan_get prog prog 0 .empty rfl rfl k
  rwa [Nat.zero_add] at this

theorem target_redirect (T : Tab) (i : Instr) : targetOf (redirect T i) = targetOf i := by cases i <;> rfl

theorem tab_leader {prog : List Instr} {j : Nat} (h : leader prog j = true) : tabAt prog j = .empty := by
  cases j <;> simp [tabAt, enter, h]

/-- Redirecting reads does not change a run, where no recorded operation writes its own operand. -/
theorem propagate_run (prog : List Instr)
    (hp : ∀ i ∈ propagate prog, ∀ k d, keyOf i = some (k, d) → k.2.1 ≠ d ∧ k.2.2 ≠ d)
    (f pc : Nat) (fr : Nat → BitVec 64) (hv : Valid (tabAt prog pc) fr) :
    refRun (propagate prog) f pc fr = refRun prog f pc fr := by
  induction f generalizing pc fr with
  | zero =>
    unfold refRun
    rw [propagate_get]
    cases prog[pc]? <;> rfl
  | succ f ih =>
    unfold refRun
    cases hi : prog[pc]? with
    | none => rw [propagate_get, hi]; rfl
    | some i =>
      have hget : (propagate prog)[pc]? = some (redirect (tabAt prog pc) i) := by rw [propagate_get, hi]; rfl
      simp only [hget]
      have hstep := step_redirect hv i pc
      cases hs : stepAt i pc fr with
      | done e => simp only [hstep, hs]
      | next pc' fr' =>
        simp only [hstep, hs]
        apply ih
        rcases valid_after hv (hp _ (List.mem_of_getElem? hget)) (hstep.trans hs) with ⟨rfl, h⟩ | h
        · simp only [tabAt, hi, enter]
          split_ifs
          · exact valid_empty _
          · exact h
        · rw [target_redirect] at h
          have : leader prog pc' = true := by
            unfold leader
            rw [List.any_eq_true]
            exact ⟨i, List.mem_of_getElem? hi, by simp [h]⟩
          rw [tab_leader this]
          exact valid_empty _

end Verif.Lang.Strength
