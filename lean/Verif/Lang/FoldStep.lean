import Verif.Lang.FoldLemmas
import Verif.Lang.MaskLemmas

/-! # Folding one operator is invisible to a checked run -/
namespace Verif.Lang

/-- The operator node, both operands strict (everything but `and` and `or`). -/
theorem evBin_strict {I : Inst} {op : BinOp} (h1 : op ≠ .and) (h2 : op ≠ .or)
    (fa fb : State → Res Value) (s : State) :
    evBin I op fa fb s =
      (fa s).bind fun a s' => (fb s').bind fun b s'' => lift (I.ap op a b) s'' := by
  cases op <;> simp_all [evBin]

@[simp] theorem truthy_bool (P : Prims) (b : Bool) : truthy P (.bool b) = b := rfl

theorem Int_compare (a b : Int) : (compare a b == Ordering.lt) = decide (a < b) ∧
    (compare a b == Ordering.gt) = decide (a > b) ∧
    (compare a b != Ordering.gt) = decide (a ≤ b) ∧
    (compare a b != Ordering.lt) = decide (a ≥ b) := by
  rcases Int.lt_trichotomy a b with h | h | h
  · rw [compare_lt_iff_lt.2 h]
    refine ⟨?_, ?_, ?_, ?_⟩ <;> symm <;> (first | (apply decide_eq_true; omega) | (apply decide_eq_false; omega))
  · subst h
    rw [compare_eq_iff_eq.2 rfl]
    refine ⟨?_, ?_, ?_, ?_⟩ <;> symm <;> (first | (apply decide_eq_true; omega) | (apply decide_eq_false; omega))
  · rw [compare_gt_iff_gt.2 h]
    refine ⟨?_, ?_, ?_, ?_⟩ <;> symm <;> (first | (apply decide_eq_true; omega) | (apply decide_eq_false; omega))

section
variable {P : Prims} {nz : Nat} {B : List Sym} {I : Inst}

theorem checked_lit (hI : IsChecked P nz B I) {op : BinOp} {a b v : Value} {s : State}
    (h : applyOp P op a b = .ok v) (hf : Fine (α := Value) (lift (I.ap op a b) s)) :
    lift (I.ap op a b) s = (.ok v, s) := by
  rw [hI.ap] at hf ⊢
  unfold checkedOp at hf ⊢
  by_cases ht : tame P nz op a b = true
  · simp [ht, h, lift]
  · simp [ht, lift] at hf

/-- Folding two literals. -/
theorem tryFold_sound (hI : IsChecked P nz B I) {op : BinOp} {l r e : Expr} {s : State}
    (h : tryFold P op l r = some e) (hf : Fine (evalE I (.bin op l r) s)) :
    evalE I e s = evalE I (.bin op l r) s := by
  have key : ∀ (op : BinOp) (a b : Lit) (c : Lit), op ≠ .and → op ≠ .or →
      applyOp P op (litVal a) (litVal b) = .ok (litVal c) →
      Fine (evalE I (.bin op (.lit a) (.lit b)) s) →
      evalE I (.lit c) s = evalE I (.bin op (.lit a) (.lit b)) s := by
    intro op a b c h1 h2 h3 h4
    simp only [evalE, evBin_strict h1 h2, bind_ok] at h4 ⊢
    rw [checked_lit hI h3 h4]
  unfold tryFold at h
  split at h
  · rename_i l r
    unfold foldInt at h
    split at h
    · rename_i hn
      simp only [Bool.and_eq_true] at hn
      cases op <;> simp only [numIfFits] at h
      case and => cases h; simp [evalE, evBin, litVal, truthy, boolOut, boolE]; by_cases h0 : l = 0 <;> simp [h0, hI.prims]
      case or => cases h; simp [evalE, evBin, litVal, truthy, boolOut, boolE]; by_cases h0 : l = 0 <;> simp [h0, hI.prims]
      all_goals first
        | cases h; done
        | (cases h
           refine key _ _ _ _ (by decide) (by decide) ?_ hf
           simp only [litVal, applyOp, cmpVals, relOf, valEq, bitVals, shiftVals, hn.1, hn.2,
             Bool.and_self, if_true]
           first
             | done
             | rfl
             | rw [(Int_compare l r).1]
             | rw [(Int_compare l r).2.1]
             | rw [(Int_compare l r).2.2.1]
             | rw [(Int_compare l r).2.2.2])
        | (split at h
           · cases h
             refine key _ _ _ _ (by decide) (by decide) ?_ hf
             simp [litVal, applyOp, addVals, subVals, mulVals, shiftVals, hn.1, hn.2]
           · cases h)
        | (split at h
           · cases h
           · rename_i h0
             split at h
             · cases h
               refine key _ _ _ _ (by decide) (by decide) ?_ hf
               simp [litVal, applyOp, divVals, h0]
             · cases h)
        | (split at h
           · cases h
           · rename_i h0
             split at h
             · cases h
             · cases h
               refine key _ _ _ _ (by decide) (by decide) ?_ hf
               simp [litVal, applyOp, modVals, h0])
    · cases h
  · cases op <;> simp only [foldFloat] at h
    all_goals first
      | cases h; done
      | (cases h
         refine key _ _ _ _ (by decide) (by decide) ?_ hf
         rfl)
      | (split at h
         · cases h
         · rename_i h0
           cases h
           refine key _ _ _ _ (by decide) (by decide) ?_ hf
           simp [litVal, applyOp, divVals, fdivChecked, h0])
  · rename_i l r
    cases op <;> simp only [foldBool] at h
    case and => cases h; cases l <;> cases r <;> simp [evalE, evBin, litVal, truthy, boolOut, boolE]
    case or => cases h; cases l <;> cases r <;> simp [evalE, evBin, litVal, truthy, boolOut, boolE]
    all_goals first
      | cases h; done
      | (cases h
         refine key _ _ _ _ (by decide) (by decide) ?_ hf
         simp [litVal, applyOp, valEq, bne])
  · cases op <;> simp only [foldText] at h
    all_goals first
      | cases h; done
      | (cases h
         refine key _ _ _ _ (by decide) (by decide) ?_ hf
         simp [litVal, applyOp, valEq, addVals, disp, bne])
  · cases h

theorem isNum_eq {k : Int} {e : Expr} (h : isNum k e = true) : e = num k := by
  cases e <;> simp [isNum] at h
  rename_i l
  cases l <;> simp at h
  rw [h, num]

theorem isFlt_eq {k : Nat} {e : Expr} (h : isFlt P k e = true) :
    ∃ f, e = .lit (.flt f) ∧ P.fcmp f k = some .eq := by
  cases e <;> simp [isFlt] at h
  rename_i l
  cases l <;> simp at h
  exact ⟨_, rfl, h⟩

theorem isBool_eq {b : Bool} {e : Expr} (h : isBool b e = true) : e = boolE b := by
  cases e <;> simp [isBool] at h
  rename_i l
  cases l <;> simp at h
  rw [h, boolE]

/-- Dropping a literal on the right: enough to check the operator. -/
theorem drop_right (hI : IsChecked P nz B I) {op : BinOp} (h1 : op ≠ .and) (h2 : op ≠ .or)
    {e : Expr} {c : Lit} {s : State}
    (hv : ∀ v u, checkedOp P nz op v (litVal c) = u → u ≠ .error .stuck → u = .ok v)
    (hf : Fine (evalE I (.bin op e (.lit c)) s)) :
    evalE I e s = evalE I (.bin op e (.lit c)) s := by
  simp only [evalE, evBin_strict h1 h2, bind_ok] at hf ⊢
  rcases he : evalE I e s with ⟨r, s'⟩
  cases r with
  | error x => simp
  | ok v =>
    simp only [he, bind_ok, hI.ap, lift] at hf ⊢
    rw [hv v _ rfl (by intro h; simp [h] at hf)]

/-- Dropping a literal on the left. -/
theorem drop_left (hI : IsChecked P nz B I) {op : BinOp} (h1 : op ≠ .and) (h2 : op ≠ .or)
    {e : Expr} {c : Lit} {s : State}
    (hv : ∀ v u, checkedOp P nz op (litVal c) v = u → u ≠ .error .stuck → u = .ok v)
    (hf : Fine (evalE I (.bin op (.lit c) e) s)) :
    evalE I e s = evalE I (.bin op (.lit c) e) s := by
  simp only [evalE, evBin_strict h1 h2, bind_ok] at hf ⊢
  rcases he : evalE I e s with ⟨r, s'⟩
  cases r with
  | error x => simp
  | ok v =>
    simp only [he, bind_ok, hI.ap, lift] at hf ⊢
    rw [hv v _ rfl (by intro h; simp [h] at hf)]

/-- Deleting a total operand on the left of a literal. -/
theorem delete_left (hI : IsChecked P nz B I) {op : BinOp} (h1 : op ≠ .and) (h2 : op ≠ .or)
    {e : Expr} {c : Lit} {s : State} (ht : total e = true)
    (hv : ∀ v u, checkedOp P nz op v (litVal c) = u → u ≠ .error .stuck → u = .ok (litVal c))
    (hf : Fine (evalE I (.bin op e (.lit c)) s)) :
    evalE I (.lit c) s = evalE I (.bin op e (.lit c)) s := by
  have h0 := total_eval hI e s ht
  simp only [evalE, evBin_strict h1 h2, bind_ok] at hf ⊢
  rcases h0 with ⟨v, hv'⟩ | h0
  · simp only [hv', bind_ok, hI.ap, lift] at hf ⊢
    rw [hv v _ rfl (by intro h; simp [h] at hf)]
  · rcases he : evalE I e s with ⟨r, s'⟩
    rw [he] at h0 hf
    cases r with
    | error x => exact absurd hf h0
    | ok v => exact absurd (by simp) h0

/-- Deleting a total operand on the right of a literal. -/
theorem delete_right (hI : IsChecked P nz B I) {op : BinOp} (h1 : op ≠ .and) (h2 : op ≠ .or)
    {e : Expr} {c : Lit} {s : State} (ht : total e = true)
    (hv : ∀ v u, checkedOp P nz op (litVal c) v = u → u ≠ .error .stuck → u = .ok (litVal c))
    (hf : Fine (evalE I (.bin op (.lit c) e) s)) :
    evalE I (.lit c) s = evalE I (.bin op (.lit c) e) s := by
  have h0 := total_eval hI e s ht
  simp only [evalE, evBin_strict h1 h2, bind_ok] at hf ⊢
  rcases h0 with ⟨v, hv'⟩ | h0
  · simp only [hv', bind_ok, hI.ap, lift] at hf ⊢
    rw [hv v _ rfl (by intro h; simp [h] at hf)]
  · rcases he : evalE I e s with ⟨r, s'⟩
    rw [he] at h0 hf
    cases r with
    | error x => exact absurd hf h0
    | ok v => exact absurd (by simp) h0

theorem add_zero_val (v : Value) (u : Except Err Value)
    (h : checkedOp P nz .add v (.int 0) = u) (hu : u ≠ .error .stuck) : u = .ok v := by
  subst h
  cases v <;> simp_all [checkedOp, tame, Value.isIntLit, Value.isInt, applyOp, addVals]

theorem zero_add_val (v : Value) (u : Except Err Value)
    (h : checkedOp P nz .add (.int 0) v = u) (hu : u ≠ .error .stuck) : u = .ok v := by
  subst h
  cases v <;> simp_all [checkedOp, tame, Value.isIntLit, Value.isInt, applyOp, addVals]

theorem sub_zero_val (hl : Lawful P nz) (v : Value) (u : Except Err Value)
    (h : checkedOp P nz .sub v (.int 0) = u) (hu : u ≠ .error .stuck) : u = .ok v := by
  subst h
  cases v <;> simp_all [checkedOp, tame, Value.isIntLit, Value.isFltLit, Value.isInt, Value.isFlt,
    applyOp, subVals, hl.int_zero]
  exact hl.sub_zero _ _ hl.zero_eq (.inr hl.zero_ne)

theorem sub_fzero_val (hl : Lawful P nz) {f : Nat} (hf : P.fcmp f P.f0 = some .eq) (v : Value)
    (u : Except Err Value) (h : checkedOp P nz .sub v (.flt f) = u) (hu : u ≠ .error .stuck) :
    u = .ok v := by
  subst h
  unfold checkedOp at hu ⊢
  by_cases ht : tame P nz .sub v (.flt f) = true
  · simp only [ht, if_true] at hu ⊢
    cases v <;> simp [tame, Value.isIntLit, Value.isFltLit, Value.isInt, Value.isFlt, hf,
      Value.isBits] at ht
    rename_i x
    simp only [applyOp, subVals]
    rw [hl.sub_zero x f hf ht]
  · simp [ht] at hu

theorem mul_one_val (hl : Lawful P nz) (v : Value) (u : Except Err Value)
    (h : checkedOp P nz .mul v (.int 1) = u) (hu : u ≠ .error .stuck) : u = .ok v := by
  subst h
  unfold checkedOp at hu ⊢
  by_cases ht : tame P nz .mul v (.int 1) = true
  · simp only [ht, if_true] at hu ⊢
    cases v <;> simp [tame, Value.isIntLit, Value.isFltLit, Value.isInt, Value.isFlt,
      Value.isList] at ht <;> simp [applyOp, mulVals, repeatVals, narrow]
    rw [hl.int_one]
    exact hl.mul_one _ _ hl.one_eq
  · simp [ht] at hu

theorem one_mul_val (hl : Lawful P nz) (v : Value) (u : Except Err Value)
    (h : checkedOp P nz .mul (.int 1) v = u) (hu : u ≠ .error .stuck) : u = .ok v := by
  subst h
  unfold checkedOp at hu ⊢
  by_cases ht : tame P nz .mul (.int 1) v = true
  · simp only [ht, if_true] at hu ⊢
    cases v <;> simp [tame, Value.isIntLit, Value.isFltLit, Value.isInt, Value.isFlt,
      Value.isList] at ht <;> simp [applyOp, mulVals, repeatVals, narrow]
    rw [hl.int_one]
    exact hl.one_mul _ _ hl.one_eq
  · simp [ht] at hu

theorem mul_fone_val (hl : Lawful P nz) {f : Nat} (hf : P.fcmp f P.f1 = some .eq) (v : Value)
    (u : Except Err Value) (h : checkedOp P nz .mul v (.flt f) = u) (hu : u ≠ .error .stuck) :
    u = .ok v := by
  subst h
  unfold checkedOp at hu ⊢
  by_cases ht : tame P nz .mul v (.flt f) = true
  · simp only [ht, if_true] at hu ⊢
    cases v <;> simp [tame, Value.isIntLit, Value.isFltLit, Value.isInt, Value.isFlt, hf] at ht
    simp only [applyOp, mulVals]
    rw [hl.mul_one _ f hf]
  · simp [ht] at hu

theorem fone_mul_val (hl : Lawful P nz) {f : Nat} (hf : P.fcmp f P.f1 = some .eq) (v : Value)
    (u : Except Err Value) (h : checkedOp P nz .mul (.flt f) v = u) (hu : u ≠ .error .stuck) :
    u = .ok v := by
  subst h
  unfold checkedOp at hu ⊢
  by_cases ht : tame P nz .mul (.flt f) v = true
  · simp only [ht, if_true] at hu ⊢
    cases v <;> simp [tame, Value.isIntLit, Value.isFltLit, Value.isInt, Value.isFlt, hf] at ht
    simp only [applyOp, mulVals]
    rw [hl.one_mul _ f hf]
  · simp [ht] at hu

theorem mul_zero_val (v : Value) (u : Except Err Value)
    (h : checkedOp P nz .mul v (.int 0) = u) (hu : u ≠ .error .stuck) : u = .ok (.int 0) := by
  subst h
  cases v <;> simp_all [checkedOp, tame, Value.isIntLit, Value.isFltLit, Value.isInt, applyOp,
    mulVals]

theorem zero_mul_val (v : Value) (u : Except Err Value)
    (h : checkedOp P nz .mul (.int 0) v = u) (hu : u ≠ .error .stuck) : u = .ok (.int 0) := by
  subst h
  cases v <;> simp_all [checkedOp, tame, Value.isIntLit, Value.isFltLit, Value.isInt, applyOp,
    mulVals]

theorem div_one_val (hl : Lawful P nz) (v : Value) (u : Except Err Value)
    (h : checkedOp P nz .div v (.int 1) = u) (hu : u ≠ .error .stuck) : u = .ok v := by
  subst h
  unfold checkedOp at hu ⊢
  by_cases ht : tame P nz .div v (.int 1) = true
  · simp only [ht, if_true] at hu ⊢
    cases v <;> simp [tame, Value.isIntLit, Value.isFltLit, Value.isInt, Value.isFlt] at ht <;>
      simp [applyOp, divVals]
    rw [hl.int_one]
    exact hl.div_one _ _ hl.one_eq
  · simp [ht] at hu

theorem div_fone_val (hl : Lawful P nz) {f : Nat} (hf : P.fcmp f P.f1 = some .eq) (v : Value)
    (u : Except Err Value) (h : checkedOp P nz .div v (.flt f) = u) (hu : u ≠ .error .stuck) :
    u = .ok v := by
  subst h
  unfold checkedOp at hu ⊢
  by_cases ht : tame P nz .div v (.flt f) = true
  · simp only [ht, if_true] at hu ⊢
    cases v <;> simp [tame, Value.isIntLit, Value.isFltLit, Value.isInt, Value.isFlt, hf] at ht
    simp [applyOp, divVals, fdivChecked, hl.one_ne f hf, hl.div_one _ f hf]
  · simp [ht] at hu

/-- The masked test against zero, as values. -/
theorem mask_val {k : Int} (hk : isPow2 k = true) (d : Value) :
    checkedOp P nz .mod d (.int k) = .error .stuck ∨
    ∃ n m, d = .int n ∧ checkedOp P nz .mod d (.int k) = .ok (.int (n.tmod k)) ∧
      checkedOp P nz .bitAnd d (.int (k - 1)) = .ok (.int m) ∧ (n.tmod k = 0 ↔ m = 0) := by
  obtain ⟨h1, h2⟩ := isPow2_log hk
  obtain ⟨_, _, _, hlt⟩ := isPow2_pow hk
  by_cases ht : tame P nz .mod d (.int k) = true
  · right
    simp only [tame, Value.isTwoPow, h1, ← h2, and_self, decide_true, Bool.not_true,
      Bool.false_or] at ht
    cases d <;> simp [Value.isNarrow] at ht
    rename_i n
    have hn : narrow n = true := by simp [narrow]; exact ht
    have hkn : narrow (k - 1) = true := by simp [narrow]; omega
    refine ⟨n, band n (k - 1), rfl, ?_, ?_, mask_iff hk hn⟩
    · have hk0 : k ≠ 0 := by omega
      simp [checkedOp, tame, Value.isTwoPow, Value.isNarrow, ht, applyOp, modVals, hk0]
    · simp [checkedOp, tame, applyOp, bitVals, hn, hkn]
  · left; simp [checkedOp, ht]

theorem eq_zero_val (op : BinOp) (hop : op = .eq ∨ op = .ne) (a b : Int) (h : a = 0 ↔ b = 0) :
    checkedOp P nz op (.int a) (.int 0) = checkedOp P nz op (.int b) (.int 0) ∧
    checkedOp P nz op (.int 0) (.int a) = checkedOp P nz op (.int 0) (.int b) := by
  rcases hop with rfl | rfl <;> by_cases ha : a = 0
  all_goals
    have hb := ha
    rw [h] at hb
    have ha' : ¬ a = 0 → ¬ (0 = a) := fun x y => x y.symm
    have hb' : ¬ b = 0 → ¬ (0 = b) := fun x y => x y.symm
    simp_all [checkedOp, tame, applyOp, valEq]

theorem maskOf_eq {e m : Expr} (h : maskOf e = some m) :
    ∃ d k, e = .bin .mod d (num k) ∧ isPow2 k = true ∧ m = .bin .bitAnd d (num (k - 1)) := by
  unfold maskOf at h
  split at h
  · rename_i d k
    split at h
    · rename_i hk; cases h; exact ⟨d, k, rfl, hk, rfl⟩
    · cases h
  · cases h

theorem maskLeft_sound (hI : IsChecked P nz B I) {op : BinOp} (hop : op = .eq ∨ op = .ne)
    {l r e : Expr} {s : State} (h : maskLeft op l r = some e)
    (hf : Fine (evalE I (.bin op l r) s)) : evalE I e s = evalE I (.bin op l r) s := by
  unfold maskLeft at h
  split at h
  · rename_i hr
    obtain rfl := isNum_eq hr
    obtain ⟨m, hm, rfl⟩ := Option.map_eq_some_iff.1 h
    obtain ⟨d, k, rfl, hk, rfl⟩ := maskOf_eq hm
    have h1 : op ≠ .and := by rcases hop with rfl | rfl <;> decide
    have h2 : op ≠ .or := by rcases hop with rfl | rfl <;> decide
    simp only [num, evalE, evBin_strict h1 h2, evBin_strict (op := .mod) (by decide) (by decide),
      evBin_strict (op := .bitAnd) (by decide) (by decide), bind_ok, litVal, hI.ap] at hf ⊢
    rcases he : evalE I d s with ⟨r, s'⟩
    rw [he] at hf
    cases r with
    | error x => simp
    | ok v =>
      simp only [bind_ok] at hf ⊢
      rcases mask_val (P := P) (nz := nz) hk v with hst | ⟨n, m, rfl, e1, e2, hz⟩
      · simp [hst, lift] at hf
      · simp only [e1, e2, lift, bind_ok]
        rw [(eq_zero_val op hop _ _ hz).1]
  · cases h

theorem maskRight_sound (hI : IsChecked P nz B I) {op : BinOp} (hop : op = .eq ∨ op = .ne)
    {l r e : Expr} {s : State} (h : maskRight op l r = some e)
    (hf : Fine (evalE I (.bin op l r) s)) : evalE I e s = evalE I (.bin op l r) s := by
  unfold maskRight at h
  split at h
  · rename_i hr
    obtain rfl := isNum_eq hr
    obtain ⟨m, hm, rfl⟩ := Option.map_eq_some_iff.1 h
    obtain ⟨d, k, rfl, hk, rfl⟩ := maskOf_eq hm
    have h1 : op ≠ .and := by rcases hop with rfl | rfl <;> decide
    have h2 : op ≠ .or := by rcases hop with rfl | rfl <;> decide
    simp only [num, evalE, evBin_strict h1 h2, evBin_strict (op := .mod) (by decide) (by decide),
      evBin_strict (op := .bitAnd) (by decide) (by decide), bind_ok, litVal, hI.ap] at hf ⊢
    rcases he : evalE I d s with ⟨r, s'⟩
    rw [he] at hf
    cases r with
    | error x => simp
    | ok v =>
      simp only [bind_ok] at hf ⊢
      rcases mask_val (P := P) (nz := nz) hk v with hst | ⟨n, m, rfl, e1, e2, hz⟩
      · simp [hst, lift] at hf
      · simp only [e1, e2, lift, bind_ok]
        rw [(eq_zero_val op hop _ _ hz).2]
  · cases h

/-- `and` with a literal. -/
theorem simpAnd_sound (hl : Lawful P nz) (hI : IsChecked P nz B I) {bools : BoolSyms}
    (hB : ∀ x ∈ bools, x ∈ B) {l r e : Expr} {s : State} (h : simpAnd bools l r = some e)
    (hf : Fine (evalE I (.bin .and l r) s)) : evalE I e s = evalE I (.bin .and l r) s := by
  unfold simpAnd at h
  split at h
  · rename_i hc
    simp only [Bool.and_eq_true] at hc
    obtain rfl := isBool_eq hc.1
    cases h
    simp only [evalE, evBin, boolE, boolOut, bind_ok, litVal]
    rcases he : evalE I l s with ⟨x, s'⟩
    cases x with
    | error x => simp
    | ok v =>
      have hv := boolish_eval hl hI hB l s s' v hc.2 he
      have ht := truthy_of_isBool (P := I.P) hv
      by_cases hx : truthy I.P v = true
      · simp [hx]; rw [← ht, hx]
      · simp [hx]; rw [← ht]; simp [hx]
  split at h
  · rename_i hc
    simp only [Bool.and_eq_true] at hc
    obtain rfl := isBool_eq hc.1
    cases h
    simp only [evalE, evBin, boolE, boolOut, bind_ok, litVal, truthy_bool, if_true]
    rcases he : evalE I r s with ⟨x, s'⟩
    cases x with
    | error x => simp
    | ok v =>
      have hv := boolish_eval hl hI hB r s s' v hc.2 he
      have ht := truthy_of_isBool (P := I.P) hv
      simp [ht]
  split at h
  · rename_i hc
    simp only [Bool.and_eq_true] at hc
    obtain rfl := isBool_eq hc.1
    cases h
    rcases total_eval hI l s hc.2 with ⟨v, hv⟩ | h0
    · simp [evalE, evBin, boolE, boolOut, litVal, hv]
    · exfalso
      simp only [evalE, evBin] at hf
      rcases he : evalE I l s with ⟨x, s'⟩
      rw [he] at h0 hf
      cases x with
      | error x => exact h0 hf
      | ok v => exact absurd (by simp) h0
  split at h
  · rename_i hc
    obtain rfl := isBool_eq hc
    cases h
    simp [evalE, evBin, boolE, litVal]
  · cases h

/-- `or` with a literal. -/
theorem simpOr_sound (hl : Lawful P nz) (hI : IsChecked P nz B I) {bools : BoolSyms}
    (hB : ∀ x ∈ bools, x ∈ B) {l r e : Expr} {s : State} (h : simpOr bools l r = some e)
    (hf : Fine (evalE I (.bin .or l r) s)) : evalE I e s = evalE I (.bin .or l r) s := by
  unfold simpOr at h
  split at h
  · rename_i hc
    simp only [Bool.and_eq_true] at hc
    obtain rfl := isBool_eq hc.1
    cases h
    rcases total_eval hI l s hc.2 with ⟨v, hv⟩ | h0
    · simp [evalE, evBin, boolE, boolOut, litVal, hv]
    · exfalso
      simp only [evalE, evBin] at hf
      rcases he : evalE I l s with ⟨x, s'⟩
      rw [he] at h0 hf
      cases x with
      | error x => exact h0 hf
      | ok v => exact absurd (by simp) h0
  split at h
  · rename_i hc
    obtain rfl := isBool_eq hc
    cases h
    simp [evalE, evBin, boolE, litVal]
  split at h
  · rename_i hc
    simp only [Bool.and_eq_true] at hc
    obtain rfl := isBool_eq hc.1
    cases h
    simp only [evalE, evBin, boolE, boolOut, bind_ok, litVal]
    rcases he : evalE I l s with ⟨x, s'⟩
    cases x with
    | error x => simp
    | ok v =>
      have hv := boolish_eval hl hI hB l s s' v hc.2 he
      have ht := truthy_of_isBool (P := I.P) hv
      by_cases hx : truthy I.P v = true
      · simp [hx]; rw [← ht, hx]
      · simp [hx]; rw [← ht]; simp [hx]
  split at h
  · rename_i hc
    simp only [Bool.and_eq_true] at hc
    obtain rfl := isBool_eq hc.1
    cases h
    simp only [evalE, evBin, boolE, boolOut, bind_ok, litVal, truthy_bool]
    rcases he : evalE I r s with ⟨x, s'⟩
    cases x with
    | error x => simp
    | ok v =>
      have hv := boolish_eval hl hI hB r s s' v hc.2 he
      have ht := truthy_of_isBool (P := I.P) hv
      simp [ht]
  · cases h

/-- Every algebraic simplification. -/
theorem simplify_sound (hl : Lawful P nz) (hI : IsChecked P nz B I) {bools : BoolSyms}
    (hB : ∀ x ∈ bools, x ∈ B) {op : BinOp} {l r e : Expr} {s : State}
    (h : simplify P bools op l r = some e) (hf : Fine (evalE I (.bin op l r) s)) :
    evalE I e s = evalE I (.bin op l r) s := by
  cases op <;> simp only [simplify] at h
  case add =>
    unfold simpAdd at h
    split at h
    · rename_i hc; obtain rfl := isNum_eq hc; cases h
      exact drop_right hI (by decide) (by decide) add_zero_val hf
    split at h
    · rename_i hc; obtain rfl := isNum_eq hc; cases h
      exact drop_left hI (by decide) (by decide) zero_add_val hf
    · cases h
  case sub =>
    unfold simpSub at h
    split at h
    · rename_i hc
      cases h
      rcases Bool.or_eq_true _ _ ▸ hc with hc | hc
      · obtain rfl := isNum_eq hc
        exact drop_right hI (by decide) (by decide) (sub_zero_val hl) hf
      · obtain ⟨f, rfl, hz⟩ := isFlt_eq hc
        exact drop_right hI (by decide) (by decide) (sub_fzero_val hl hz) hf
    · cases h
  case mul =>
    unfold simpMul at h
    split at h
    · rename_i hc
      cases h
      rcases Bool.or_eq_true _ _ ▸ hc with hc | hc
      · obtain rfl := isNum_eq hc
        exact drop_right hI (by decide) (by decide) (mul_one_val hl) hf
      · obtain ⟨f, rfl, hz⟩ := isFlt_eq hc
        exact drop_right hI (by decide) (by decide) (mul_fone_val hl hz) hf
    split at h
    · rename_i hc
      cases h
      rcases Bool.or_eq_true _ _ ▸ hc with hc | hc
      · obtain rfl := isNum_eq hc
        exact drop_left hI (by decide) (by decide) (one_mul_val hl) hf
      · obtain ⟨f, rfl, hz⟩ := isFlt_eq hc
        exact drop_left hI (by decide) (by decide) (fone_mul_val hl hz) hf
    split at h
    · rename_i hc
      simp only [Bool.and_eq_true] at hc
      obtain rfl := isNum_eq hc.1
      cases h
      exact delete_left hI (by decide) (by decide) hc.2 mul_zero_val hf
    split at h
    · rename_i hc
      simp only [Bool.and_eq_true] at hc
      obtain rfl := isNum_eq hc.1
      cases h
      exact delete_right hI (by decide) (by decide) hc.2 zero_mul_val hf
    · cases h
  case div =>
    unfold simpDiv at h
    split at h
    · rename_i hc
      cases h
      rcases Bool.or_eq_true _ _ ▸ hc with hc | hc
      · obtain rfl := isNum_eq hc
        exact drop_right hI (by decide) (by decide) (div_one_val hl) hf
      · obtain ⟨f, rfl, hz⟩ := isFlt_eq hc
        exact drop_right hI (by decide) (by decide) (div_fone_val hl hz) hf
    · cases h
  case and => exact simpAnd_sound hl hI hB h hf
  case or => exact simpOr_sound hl hI hB h hf
  case eq =>
    rcases Option.or_eq_some_iff.1 h with h | ⟨_, h⟩
    · exact maskLeft_sound hI (.inl rfl) h hf
    · exact maskRight_sound hI (.inl rfl) h hf
  case ne =>
    rcases Option.or_eq_some_iff.1 h with h | ⟨_, h⟩
    · exact maskLeft_sound hI (.inr rfl) h hf
    · exact maskRight_sound hI (.inr rfl) h hf
  all_goals cases h

/-- Folding an operator. -/
theorem foldBin_sound (hl : Lawful P nz) (hI : IsChecked P nz B I) {bools : BoolSyms}
    (hB : ∀ x ∈ bools, x ∈ B) (op : BinOp) (l r : Expr) (s : State)
    (hf : Fine (evalE I (.bin op l r) s)) :
    evalE I (foldBin P bools op l r) s = evalE I (.bin op l r) s := by
  unfold foldBin
  cases h1 : tryFold P op l r with
  | some e => simpa using tryFold_sound hI h1 hf
  | none =>
    cases h2 : simplify P bools op l r with
    | some e => simpa using simplify_sound hl hI hB h2 hf
    | none => simp

/-- Folding a negation. -/
theorem foldNot_sound (hl : Lawful P nz) (hI : IsChecked P nz B I) {bools : BoolSyms}
    (hB : ∀ x ∈ bools, x ∈ B) (e : Expr) (s : State) :
    evalE I (foldNot bools e) s = evalE I (.not e) s := by
  unfold foldNot
  split
  · simp [evalE, boolE, litVal]
  · simp [evalE, boolE, litVal, truthy, bne]
  · rename_i inner
    split
    · rename_i hb
      simp only [evalE]
      rcases he : evalE I inner s with ⟨x, s'⟩
      cases x with
      | error x => simp
      | ok v =>
        have hv := boolish_eval hl hI hB inner s s' v hb he
        have ht := truthy_of_isBool (P := I.P) hv
        simp only [bind_ok]
        rw [show truthy I.P (.bool (!truthy I.P v)) = !truthy I.P v from rfl, Bool.not_not, ht]
    · rfl
  · rfl

end

end Verif.Lang
