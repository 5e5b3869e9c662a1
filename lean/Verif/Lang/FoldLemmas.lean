import Verif.Lang.Fold
import Verif.Lang.Checked

/-! # Folding one operator is invisible to a checked run -/
namespace Verif.Lang

/-- The result does not trip a check. -/
def Fine {α : Type} (r : Res α) : Prop :=
  match r.1 with
  | .ok _ => True
  | .error e => ¬ Tripped (some e)

@[simp] theorem bind_ok {α β : Type} (a : α) (s : State) (k : α → State → Res β) :
    Res.bind (.ok a, s) k = k a s := rfl

@[simp] theorem bind_error {α β : Type} (e : Err) (s : State) (k : α → State → Res β) :
    Res.bind (α := α) (.error e, s) k = (.error e, s) := rfl

@[simp] theorem fine_stuck {α : Type} (s : State) : Fine (α := α) (.error .stuck, s) ↔ False := by
  simp [Fine, Tripped]

@[simp] theorem fine_unbound {α : Type} (x : Sym) (s : State) :
    Fine (α := α) (.error (.unbound x), s) ↔ False := by
  simp [Fine, Tripped]

@[simp] theorem fine_ok {α : Type} (a : α) (s : State) : Fine (.ok a, s) ↔ True := by
  simp [Fine]

/-- An instance that checks. -/
structure IsChecked (P : Prims) (nz : Nat) (B : List Sym) (I : Inst) : Prop where
  prims : I.P = P
  ap : I.ap = checkedOp P nz
  reads : I.reads = checkedRead B

theorem isBool_iff (v : Value) : v.isBool = true ↔ ∃ b, v = .bool b := by
  cases v <;> simp [Value.isBool]

theorem truthy_of_isBool {P : Prims} {v : Value} (h : v.isBool = true) :
    Value.bool (truthy P v) = v := by
  obtain ⟨b, rfl⟩ := (isBool_iff v).1 h
  rfl

theorem checkedOp_ok {P : Prims} {nz : Nat} {op : BinOp} {a b v : Value}
    (h : checkedOp P nz op a b = .ok v) : tame P nz op a b = true ∧ applyOp P op a b = .ok v := by
  unfold checkedOp at h
  split at h
  · rename_i ht
    refine ⟨ht, ?_⟩
    split at h
    · rename_i e; rw [e]; exact h
    · split at h <;> cases h
  · cases h

/-- A checked operator yields a value, trips, or is one of the three that may fail. -/
theorem checkedOp_cases (P : Prims) (nz : Nat) (op : BinOp) (a b : Value) :
    (∃ v, checkedOp P nz op a b = .ok v) ∨ checkedOp P nz op a b = .error .stuck ∨
      mayFail op = true := by
  unfold checkedOp
  split
  · split
    · exact .inl ⟨_, rfl⟩
    · split
      · rename_i h; exact .inr (.inr h)
      · exact .inr (.inl rfl)
  · exact .inr (.inl rfl)

section
variable {P : Prims} {nz : Nat} {B : List Sym} {I : Inst}

/-- A total expression changes nothing and either has a value or trips a check. -/
theorem total_eval (hI : IsChecked P nz B I) : ∀ (e : Expr) (s : State), total e = true →
    (∃ v, evalE I e s = (.ok v, s)) ∨ ¬ Fine (evalE I e s) := by
  intro e
  induction e using Expr.rec (motive_2 := fun _ => True) with
  | lit l => intro s _; exact .inl ⟨litVal l, by simp [evalE]⟩
  | var x =>
    intro s _
    simp only [evalE, evVar]
    cases h : s.env.lookup x with
    | none => right; simp
    | some v =>
      by_cases hr : I.reads x v = true
      · left; exact ⟨v, by simp [hr]⟩
      · right; simp [hr]
  | bin op a b iha ihb =>
    intro s ht
    have hnf : mayFail op = false := by
      cases op <;> simp_all [total, mayFail]
    have hab : total a = true ∧ total b = true := by
      cases op <;> simp_all [total]
    rcases iha s hab.1 with ⟨v, hv⟩ | hv
    · rcases ihb s hab.2 with ⟨w, hw⟩ | hw
      · have hplain : ∀ op, mayFail op = false →
            (∃ v', ((lift (I.ap op v w) s : Res Value)) = (.ok v', s)) ∨
              ¬ Fine (lift (I.ap op v w) s) := by
          intro op hop
          rw [hI.ap]
          rcases checkedOp_cases P nz op v w with ⟨u, hu⟩ | hu | hu
          · left; exact ⟨u, by simp [lift, hu]⟩
          · right; simp [lift, hu]
          · rw [hop] at hu; cases hu
        cases op <;> first
          | (simp only [evalE, evBin, hv, hw, bind_ok]; exact hplain _ hnf)
          | (simp only [evalE, evBin, hv, hw, bind_ok, boolOut]
             left; by_cases ht : truthy I.P v = true <;> simp [ht])
      · cases op <;> simp only [evalE, evBin, hv, bind_ok, boolOut] <;> first
          | (right; intro hf; apply hw
             revert hf
             cases evalE I b s with
             | mk r s' => cases r <;> simp [Fine, Res.bind])
          | (by_cases ht : truthy I.P v = true
             · simp only [ht, if_true]
               first
                 | (left; exact ⟨_, rfl⟩)
                 | (right; intro hf; apply hw
                    revert hf
                    cases evalE I b s with
                    | mk r s' => cases r <;> simp [Fine, Res.bind])
             · simp only [ht]
               first
                 | (left; exact ⟨_, rfl⟩)
                 | (right; intro hf; apply hw
                    revert hf
                    cases evalE I b s with
                    | mk r s' => cases r <;> simp [Fine, Res.bind]))
    · right
      intro hf; apply hv
      revert hf
      cases op <;> simp only [evalE, evBin] <;>
        (cases evalE I a s with
         | mk r s' => cases r <;> simp [Fine, Res.bind])
  | not a ih =>
    intro s ht
    rcases ih s (by simpa [total] using ht) with ⟨v, hv⟩ | hv
    · left; simp only [evalE, hv, bind_ok]; exact ⟨_, rfl⟩
    · right
      intro hf; apply hv
      revert hf
      simp only [evalE]
      cases evalE I a s with
      | mk r s' => cases r <;> simp [Fine, Res.bind]
  | call f args _ => intro s ht; simp [total] at ht
  | callv c args _ _ => intro s ht; simp [total] at ht
  | list items _ => intro s ht; simp [total] at ht
  | index c i _ _ => intro s ht; simp [total] at ht
  | length c _ => intro s ht; simp [total] at ht
  | closure ps b _ => intro s ht; simp [total] at ht
  | nil => trivial
  | cons _ _ _ _ => trivial

theorem boolOut_bool {r : Res Value} {v : Value} {s : State} (h : boolOut P r = (.ok v, s)) :
    v.isBool = true := by
  rcases r with ⟨r, s'⟩
  cases r with
  | ok a => simp [boolOut] at h; rw [← h.1]; rfl
  | error e => simp [boolOut] at h

/-- A boolish expression only has Boolean values. -/
theorem boolish_eval (hl : Lawful P nz) (hI : IsChecked P nz B I) {bools : BoolSyms}
    (hB : ∀ x ∈ bools, x ∈ B) (e : Expr) (s s' : State) (v : Value)
    (hb : boolish bools e = true) (h : evalE I e s = (.ok v, s')) : v.isBool = true := by
  have hop : ∀ op (ra : Res Value) (fb : State → Res Value),
      (∀ x y u, applyOp P op x y = .ok u → u.isBool = true) →
      (ra.bind fun a s' => (fb s').bind fun b s'' => lift (I.ap op a b) s'') = (.ok v, s') →
      v.isBool = true := by
    intro op ra fb hap hr
    rcases ra with ⟨ra, s1⟩
    cases ra with
    | error e => simp at hr
    | ok x =>
      simp only [bind_ok] at hr
      rcases hfb : fb s1 with ⟨rb, s2⟩
      cases rb with
      | error e => simp [hfb] at hr
      | ok y =>
        simp only [hfb, bind_ok, lift, Prod.mk.injEq, hI.ap] at hr
        exact hap x y v (checkedOp_ok hr.1).2
  have hcmp : ∀ op x y u, cmpVals P op x y = .ok u → u.isBool = true := by
    intro op x y u hu
    cases x <;> cases y <;> simp [cmpVals] at hu <;> rw [← hu] <;> rfl
  cases e with
  | lit l =>
    cases l <;> simp [boolish] at hb
    simp [evalE, litVal] at h
    rw [← h.1]; rfl
  | var x =>
    have hx : x ∈ B := hB x (by simpa [boolish] using hb)
    simp only [evalE, evVar] at h
    cases hlk : s.env.lookup x with
    | none => simp [hlk] at h
    | some w =>
      by_cases hr : I.reads x w = true
      · simp [hlk, hr] at h
        rw [hI.reads] at hr
        simp [checkedRead, hx] at hr
        rw [← h.1]; exact hr
      · simp [hlk, hr] at h
  | not a =>
    simp only [evalE] at h
    rcases ha : evalE I a s with ⟨ra, s1⟩
    cases ra with
    | error e => simp [ha] at h
    | ok x => simp [ha] at h; rw [← h.1]; rfl
  | bin op a b =>
    cases op <;> simp [boolish] at hb <;> simp only [evalE, evBin] at h
    case eq => exact hop .eq _ _ (by intro x y u hu; simp [applyOp] at hu; rw [← hu]; rfl) h
    case ne => exact hop .ne _ _ (by intro x y u hu; simp [applyOp] at hu; rw [← hu]; rfl) h
    case approxEq => exact hop .approxEq _ _ (fun x y u hu => hl.approx x y u hu) h
    case lt => exact hop .lt _ _ (fun x y u hu => hcmp .lt x y u hu) h
    case gt => exact hop .gt _ _ (fun x y u hu => hcmp .gt x y u hu) h
    case le => exact hop .le _ _ (fun x y u hu => hcmp .le x y u hu) h
    case ge => exact hop .ge _ _ (fun x y u hu => hcmp .ge x y u hu) h
    all_goals
      rcases ha : evalE I a s with ⟨ra, s1⟩
      cases ra with
      | error e => simp [ha] at h
      | ok x =>
        simp only [ha, bind_ok] at h
        split at h
        · first
            | exact boolOut_bool h
            | (simp at h; rw [← h.1]; rfl)
        · first
            | exact boolOut_bool h
            | (simp at h; rw [← h.1]; rfl)
  | call f args => simp [boolish] at hb
  | callv c args => simp [boolish] at hb
  | list items => simp [boolish] at hb
  | index c i => simp [boolish] at hb
  | length c => simp [boolish] at hb
  | closure ps b => simp [boolish] at hb

end

end Verif.Lang
