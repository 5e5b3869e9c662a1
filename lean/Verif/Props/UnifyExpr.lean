import Verif.Proof.UnifyExprLemmas
/-!
# C88 – Formula unification returns a most general unifier

The full claim: if `unify_exprs` succeeds, the two formulas become the same (up to the names of their
quantified variables) under the returned substitution, which is as general as possible, and it succeeds
whenever some substitution of the free variables does that.  Proved for formulas without quantifiers
and worlds; with either, the claim is false as the witnesses show.
-/
namespace Verif.Props
open Verif.Proof

/-- **C88** (termination), for formulas without quantifiers and worlds. -/
theorem C88_terminates_partial (id : Nat) (a b : QExpr) (pa : Plain a) (pb : Plain b) :
    ∃ r n, ∀ m, n ≤ m → unifyExprs m id a b = some r := by
  obtain ⟨V, r, ⟨n, h⟩, _⟩ := unifyExprs_claim id a b pa pb
  exact ⟨_, n, h⟩

theorem unifyExprs_good {n id id' : Nat} {a b : QExpr} {s : Subst} (pa : Plain a) (pb : Plain b)
    (h : unifyExprs n id a b = some (.ok (s, id'))) : id' = id ∧ ∃ V σ, Step V .empty .empty s σ ∧
      mapE (res σ) a = mapE (res σ) b ∧
      ∀ θ, mapE (inst θ) a = mapE (inst θ) b → Resp θ σ := by
  obtain ⟨V, r, ⟨m, hm⟩, hg⟩ := unifyExprs_claim id a b pa pb
  have h1 := hm (max n m) (Nat.le_max_right _ _)
  have h2 : unifyExprs (max n m) id a b = some (.ok (s, id')) := unifyExpr_mono pa pb h (Nat.le_max_left _ _)
  unfold unifyExprs at h2
  rw [h1] at h2
  cases r with
  | error e => cases h2
  | ok s' =>
    simp only [Except.map, Option.some.injEq, Except.ok.injEq, Prod.mk.injEq] at h2
    obtain ⟨rfl, rfl⟩ := h2
    obtain ⟨σ, st, hd, hmg, _⟩ := hg
    exact ⟨rfl, V, σ, st, hd, fun θ he => hmg θ (Resp.empty θ) he⟩

/-- **C88** (the answer is a unifier), for formulas without quantifiers and worlds: applying the
returned substitution ends and gives the same formula on both sides. -/
theorem C88_unifier_partial (n id id' : Nat) (a b : QExpr) (pa : Plain a) (pb : Plain b) (s : Subst)
    (h : unifyExprs n id a b = some (.ok (s, id'))) :
    ∃ m r, applyExpr m s a = some r ∧ applyExpr m s b = some r := by
  obtain ⟨_, V, σ, st, hd, _⟩ := unifyExprs_good pa pb h
  obtain ⟨m1, h1⟩ := applyExpr_plain st.inv a pa
  obtain ⟨m2, h2⟩ := applyExpr_plain st.inv b pb
  exact ⟨max m1 m2, _, h1 _ (Nat.le_max_left _ _), by rw [h2 _ (Nat.le_max_right _ _), hd]⟩

/-- **C88** (most general), for formulas without quantifiers and worlds. -/
theorem C88_most_general_partial (n id id' : Nat) (a b : QExpr) (pa : Plain a) (pb : Plain b) (s : Subst)
    (h : unifyExprs n id a b = some (.ok (s, id'))) (θ : List Char → Term)
    (hθ : instExpr θ a = instExpr θ b) (m : Nat) (u r : Term) (hu : applyTerm m s u = some r) :
    inst θ r = inst θ u := by
  obtain ⟨_, V, σ, st, _, hm⟩ := unifyExprs_good pa pb h
  have : r = res σ u := Ev.unique ⟨m, hu⟩ (st.inv.ends u)
  rw [this]
  exact hm θ (by rw [← instExpr_eq θ a pa, ← instExpr_eq θ b pb, hθ]) u

/-- **C88** (completeness), for formulas without quantifiers and worlds in which no name is used both
as a free and as a bound variable. -/
theorem C88_complete_partial (id : Nat) (a b : QExpr) (pa : Plain a) (pb : Plain b)
    (K : List Char → Bool) (h1 : WKE K a) (h2 : WKE K b) (θ : List Char → Term)
    (hθ : instExpr θ a = instExpr θ b) :
    ∃ s n, ∀ m, n ≤ m → unifyExprs m id a b = some (.ok (s, id)) := by
  obtain ⟨V, r, ⟨n, hn⟩, hg⟩ := unifyExprs_claim id a b pa pb
  cases r with
  | ok s => exact ⟨s, n, hn⟩
  | error e =>
    refine absurd ?_ (hg K θ (fun v t h => by simp [Subst.empty] at h) ⟨h1, h2⟩ (Resp.empty θ))
    show mapE (inst θ) a = mapE (inst θ) b
    rw [← instExpr_eq θ a pa, ← instExpr_eq θ b pb, hθ]

/-- `P(x) ∧ x = f(y)` and `P(f(c)) ∧ z = f(c)`. -/
example :
    let a := QExpr.bin .and (.pred ['P'] [.var ['x']] none) (.ident (.var ['x']) (.fn ['f'] [.var ['y']]))
    let b := QExpr.bin .and (.pred ['P'] [.fn ['f'] [.const ['c']]] none)
      (.ident (.var ['z']) (.fn ['f'] [.const ['c']]))
    Plain a ∧ Plain b ∧ (∃ s, unifyExprs 9 4 a b = some (.ok (s, 4)) ∧ s ['y'] = some (.const ['c'])) ∧
    WKE (fun _ => true) a ∧ WKE (fun _ => true) b ∧
    instExpr (fun v => if v = ['y'] then .const ['c'] else .fn ['f'] [.const ['c']]) a =
      instExpr (fun v => if v = ['y'] then .const ['c'] else .fn ['f'] [.const ['c']]) b := by
  refine ⟨by simp [Plain], by simp [Plain], ⟨_, rfl, rfl⟩, by simp [WKE, WK, WKs], by simp [WKE, WK, WKs], ?_⟩
  simp [instExpr, inst, insts]

/-- Specification: a formula in a structure with domain `D` and one unary relation `Q`; free variables
are read by `ρ`, a quantifier ranges over `D`. Only the shapes used in the witness below. -/
def Holds {D : Type} (Q : D → Prop) (ρ : List Char → D) : QExpr → Prop
  | .pred _ [.var v] _ => Q (ρ v)
  | .quant .all x b => ∀ d, Holds Q (fun v => if v = x then d else ρ v) b
  | .quant .ex x b => ∃ d, Holds Q (fun v => if v = x then d else ρ v) b
  | _ => False

/-- **C88** is false for nested quantifiers over one name: `∀x ∃x Q(x)` and `∀x ∃y Q(x)` unify with the
empty substitution, although the first says that something is `Q` and the second that everything is. -/
theorem C88_shadowing_fails :
    let a := QExpr.quant .all ['x'] (.quant .ex ['x'] (.pred ['Q'] [.var ['x']] none))
    let b := QExpr.quant .all ['x'] (.quant .ex ['y'] (.pred ['Q'] [.var ['x']] none))
    (∃ s id, unifyExprs 9 0 a b = some (.ok (s, id)) ∧ ∀ v, s v = none) ∧
    Holds (D := Bool) (fun d => d = true) (fun _ => true) a ∧
    ¬ Holds (D := Bool) (fun d => d = true) (fun _ => true) b := by
  refine ⟨⟨_, _, rfl, fun _ => rfl⟩, ?_, ?_⟩
  · simp [Holds]
  · simp [Holds]

/-- **C88** is false for quantifiers over different names: `∀x P(x, y)` and `∀z P(z, z)` have no common
instance, but unify by sending the free `y` to the internal constant that stands for the quantified
variable, and the substituted formulas differ. -/
theorem C88_escape_fails :
    let a := QExpr.quant .all ['x'] (.pred ['P'] [.var ['x'], .var ['y']] none)
    let b := QExpr.quant .all ['z'] (.pred ['P'] [.var ['z'], .var ['z']] none)
    (∃ s id, unifyExprs 9 0 a b = some (.ok (s, id)) ∧ s ['y'] = some (.const ['#', 'α', '0']) ∧
      applyExpr 9 s a = some (.quant .all ['x'] (.pred ['P'] [.var ['x'], .const ['#', 'α', '0']] none)) ∧
      applyExpr 9 s b = some b) := by
  have h0 : dec 0 = ['0'] := by decide +kernel
  refine ⟨_, _, rfl, ?_, ?_, ?_⟩ <;>
    simp [applyExpr, applyTerm, mapAll, newBinder, Subst.insert, Subst.empty, h0]

/-- **C88** is false for worlds: `P` at no stated world and `P` at `w1` unify, and so do `P` at no
stated world and `P` at `w2`, although `P` at `w1` and `P` at `w2` do not. -/
theorem C88_world_fails :
    let P := fun w => QExpr.pred ['P'] [] w
    (∃ s, unifyExprs 9 0 (P none) (P (some ['1'])) = some (.ok (s, 0)) ∧
      applyExpr 9 s (P none) = some (P none) ∧ applyExpr 9 s (P (some ['1'])) = some (P (some ['1']))) ∧
    (∃ s, unifyExprs 9 0 (P none) (P (some ['2'])) = some (.ok (s, 0))) ∧
    unifyExprs 9 0 (P (some ['1'])) (P (some ['2'])) = some (.error .symbolMismatch) :=
  ⟨⟨_, rfl, rfl, rfl⟩, ⟨_, rfl⟩, rfl⟩

end Verif.Props
