import Verif.Kernel.RingLemmas
/-!
# C72: the `ring` procedure proves exactly the polynomial identities

The specification is `Denotes` (the value of an arithmetic term, given values for its numbered and its
named variables) in `Verif/Kernel/Syntax.lean`.
-/
namespace Verif.Props
open Verif.Kernel

/-- The equation `a = b` at type `ty`, as a syntax tree. -/
def equation (ty a b : Term) : Term := sApp (sApp (sApp (sName "Eq") ty) a) b

/-- An accepted goal whose variables are de Bruijn indices is an equation at `Int` or `Nat`, and its two
sides have the same value in every commutative ring, whatever its variables stand for.  (Without the
condition on the variables this is false: `C72_index_fails`.) -/
theorem C72_sound_partial {goal : Term} (hd : DeBruijn goal) (h : ringAccepts goal = true) :
    ∃ ty a b, goal = equation ty a b ∧ (ty = sName "Int" ∨ ty = sName "Nat") ∧
      ∀ (R : Type) [CommRing R] (ρ : Int → R) (σ : String → R),
        ∃ x, Denotes ρ σ a x ∧ Denotes ρ σ b x := by
  obtain ⟨ty, a, b, v, v', p, rfl, ht, ha, hb⟩ := ringAccepts_iff.1 h
  refine ⟨ty, a, b, rfl, ht, ?_⟩
  intro R _ ρ σ
  have hda : DeBruijn a := fun i hi => hd i (.left (.right (.right hi)))
  have hdb : DeBruijn b := fun i hi => hd i (.right hi)
  have ova := ha.ok Interner.new_ok
  have ovb := hb.ok ova.1
  haveI : Inhabited R := ⟨0⟩
  obtain ⟨τ, hτ⟩ := exists_index ρ σ ovb.1
  exact ⟨_, ha.denotes (ring_interp R) Interner.new_ok hda τ ρ σ (hτ.mono ovb.2),
    hb.denotes (ring_interp R) ova.1 hdb τ ρ σ hτ⟩

/-- Every identity over the integers is accepted: if the two sides always have the same value, the
procedure says yes. -/
theorem C72_complete {ty a b : Term} (hty : ty = sName "Int" ∨ ty = sName "Nat")
    (hda : DeBruijn a) (hdb : DeBruijn b)
    (h : ∀ (ρ : Int → Int) (σ : String → Int), ∃ x, Denotes ρ σ a x ∧ Denotes ρ σ b x) :
    ringAccepts (equation ty a b) = true := by
  obtain ⟨x0, ha0, hb0⟩ := h 0 (fun _ => 0)
  have hm : ∀ x y, ∃ z, ringAlgebra.mul x y = some z := fun x y => ⟨_, rfl⟩
  obtain ⟨p, v, ha⟩ := reads_of_denotes hm ha0 Interner.new
  obtain ⟨q, v', hb⟩ := reads_of_denotes hm hb0 v
  have ova := ha.ok Interner.new_ok
  have ovb := hb.ok ova.1
  have hpq : p = q := by
    refine Poly.eq_of_mv (ha.good (ring_interp ℤ)) (hb.good (ring_interp ℤ)) ?_
    refine MvPolynomial.funext (fun τ => ?_)
    obtain ⟨ρ, σ, hτ⟩ := exists_values τ ovb.1
    obtain ⟨x, hxa, hxb⟩ := h ρ σ
    have h1 := ha.denotes (ring_interp ℤ) Interner.new_ok hda τ ρ σ (hτ.mono ovb.2)
    have h2 := hb.denotes (ring_interp ℤ) ova.1 hdb τ ρ σ hτ
    have e1 := h1.unique hxa
    have e2 := h2.unique hxb
    have e3 := e1.trans e2.symm
    simpa [MvPolynomial.aeval_def, MvPolynomial.eval₂_eq', MvPolynomial.eval_eq'] using e3
  subst hpq
  exact ringAccepts_iff.2 ⟨ty, a, b, v, v', p, rfl, hty, ha, hb⟩

/-- A rejected equation between arithmetic terms has a counterexample in the integers. -/
theorem C72_rejected {ty a b : Term} (hty : ty = sName "Int" ∨ ty = sName "Nat")
    (hda : DeBruijn a) (hdb : DeBruijn b)
    (ha : ∀ (ρ : Int → Int) (σ : String → Int), ∃ x, Denotes ρ σ a x)
    (hb : ∀ (ρ : Int → Int) (σ : String → Int), ∃ x, Denotes ρ σ b x)
    (h : ringAccepts (equation ty a b) = false) :
    ∃ (ρ : Int → Int) (σ : String → Int) (x y : Int), Denotes ρ σ a x ∧ Denotes ρ σ b y ∧ x ≠ y := by
  by_contra hc
  have : ringAccepts (equation ty a b) = true := by
    refine C72_complete hty hda hdb (fun ρ σ => ?_)
    obtain ⟨x, hx⟩ := ha ρ σ
    obtain ⟨y, hy⟩ := hb ρ σ
    by_cases e : x = y
    · exact ⟨x, hx, e ▸ hy⟩
    · exact absurd ⟨ρ, σ, x, y, hx, hy, e⟩ hc
  rw [this] at h; cases h

/-- **Disagreement.**  The first named variable of a goal gets the index `-1000000`, and nothing stops
the goal from using that index itself: `SVar (-1000000) = SName "a"` is accepted, although the two
sides are unrelated. -/
theorem C72_index_fails :
    ∃ (goal a b : Term), goal = equation (sName "Int") a b ∧ ringAccepts goal = true ∧
      ∃ (ρ : Int → Int) (σ : String → Int) (x y : Int),
        Denotes ρ σ a x ∧ Denotes ρ σ b y ∧ x ≠ y :=
  ⟨_, sVar (-1000000), sName "a", rfl, by decide +kernel, fun _ => 0, fun _ => 1, 0, 1, .var _, .name _,
    by decide⟩

/-! ### Equations at `Nat`

The procedure also reads equations at `Nat`, which is not a ring: subtraction on the natural numbers stops
at zero. -/

/-- The value of an arithmetic term in the natural numbers. -/
inductive DenotesNat (ρ : Int → Nat) (σ : String → Nat) : Term → Nat → Prop
  | lit (n : Nat) : DenotesNat ρ σ (sLit n) n
  | var (i : Int) : DenotesNat ρ σ (sVar i) (ρ i)
  | name (s : String) : DenotesNat ρ σ (sName s) (σ s)
  | add {a b : Term} {x y : Nat} : DenotesNat ρ σ a x → DenotesNat ρ σ b y →
      DenotesNat ρ σ (sBin "add" a b) (x + y)
  | sub {a b : Term} {x y : Nat} : DenotesNat ρ σ a x → DenotesNat ρ σ b y →
      DenotesNat ρ σ (sBin "sub" a b) (x - y)
  | mul {a b : Term} {x y : Nat} : DenotesNat ρ σ a x → DenotesNat ρ σ b y →
      DenotesNat ρ σ (sBin "mul" a b) (x * y)

/-- A term without subtraction. -/
def NoSub (t : Term) : Prop := ¬ Occurs (sName "sub") t

/-- The value in the natural numbers of a term without subtraction is its value in the integers. -/
theorem denotesNat_int {ρ : Int → Nat} {σ : String → Nat} {t : Term} {x : Nat}
    (h : DenotesNat ρ σ t x) (hn : NoSub t) :
    Denotes (fun i => (ρ i : Int)) (fun s => (σ s : Int)) t (x : Int) := by
  induction h with
  | lit n => exact .lit (n : Int)
  | var i => exact .var i
  | name s => exact .name s
  | add _ _ i1 i2 =>
    push_cast
    exact .add (i1 fun h => hn (.left (.right (.right h)))) (i2 fun h => hn (.right h))
  | sub _ _ _ _ => exact absurd (.left (.right (.left (.right .here)))) hn
  | mul _ _ i1 i2 =>
    push_cast
    exact .mul (i1 fun h => hn (.left (.right (.right h)))) (i2 fun h => hn (.right h))

/-- An accepted equation without subtraction holds for all natural values of its variables. -/
theorem C72_nat_sound {a b : Term} (hd : DeBruijn (equation (sName "Nat") a b)) (ha : NoSub a) (hb : NoSub b)
    (h : ringAccepts (equation (sName "Nat") a b) = true) (ρ : Int → Nat) (σ : String → Nat) {x y : Nat}
    (hx : DenotesNat ρ σ a x) (hy : DenotesNat ρ σ b y) : x = y := by
  obtain ⟨ty, a', b', e, _, hh⟩ := C72_sound_partial hd h
  simp only [equation, sApp, Term.app.injEq, true_and] at e
  obtain ⟨⟨-, rfl⟩, rfl⟩ := e
  obtain ⟨z, h1, h2⟩ := hh Int (fun i => (ρ i : Int)) (fun s => (σ s : Int))
  have e1 := (denotesNat_int hx ha).unique h1
  have e2 := (denotesNat_int hy hb).unique h2
  exact_mod_cast e1.trans e2.symm

/-- **Disagreement.**  `x - y + y = x` is accepted at `Nat`, and false there for `x = 0`, `y = 1`. -/
theorem C72_nat_fails :
    ringAccepts (equation (sName "Nat") (sBin "add" (sBin "sub" (sVar 0) (sVar 1)) (sVar 1)) (sVar 0)) = true ∧
      ∃ (ρ : Int → Nat) (σ : String → Nat) (x y : Nat),
        DenotesNat ρ σ (sBin "add" (sBin "sub" (sVar 0) (sVar 1)) (sVar 1)) x ∧
        DenotesNat ρ σ (sVar 0) y ∧ x ≠ y :=
  ⟨by decide +kernel, fun i => if i = 1 then 1 else 0, fun _ => 0, 0 - 1 + 1, 0,
    .add (.sub (.var 0) (.var 1)) (.var 1), .var 0, by decide⟩

/-! ### The hypotheses are met -/

/-- `(x + a)² = x² + 2·x·a + a²`, with a numbered and a named variable. -/
def squareGoal : Term :=
  equation (sName "Int")
    (sBin "mul" (sBin "add" (sVar 0) (sName "a")) (sBin "add" (sVar 0) (sName "a")))
    (sBin "add" (sBin "add" (sBin "mul" (sVar 0) (sVar 0))
      (sBin "mul" (sLit 2) (sBin "mul" (sVar 0) (sName "a")))) (sBin "mul" (sName "a") (sName "a")))

example : ringAccepts squareGoal = true := by decide +kernel

example : ringAccepts (equation (sName "Int") (sBin "mul" (sVar 0) (sVar 1)) (sVar 0)) = false := by
  decide +kernel

theorem occurs_app {s f x : Term} : Occurs s (.app f x) ↔ Term.app f x = s ∨ Occurs s f ∨ Occurs s x :=
  ⟨fun h => by cases h <;> simp_all, fun h => by
    rcases h with rfl | h | h
    · exact .here
    · exact .left h
    · exact .right h⟩

theorem occurs_global {s : Term} {c : String} : Occurs s (.global c) ↔ Term.global c = s :=
  ⟨fun h => by cases h; rfl, fun h => h ▸ .here⟩

theorem occurs_lit {s : Term} {c : Lit} : Occurs s (.lit c) ↔ Term.lit c = s :=
  ⟨fun h => by cases h; rfl, fun h => h ▸ .here⟩

example : NoSub (sBin "add" (sVar 0) (sName "a")) ∧
    ringAccepts (equation (sName "Nat") (sBin "add" (sVar 0) (sName "a"))
      (sBin "add" (sName "a") (sVar 0))) = true := by
  refine ⟨fun h => ?_, by decide +kernel⟩
  simp [sBin, sApp, sVar, sName, occurs_app, occurs_global, occurs_lit] at h

example : DeBruijn squareGoal := deBruijn_of_b (by decide +kernel)

example (ρ : Int → Int) (σ : String → Int) : ∃ x,
    Denotes ρ σ (sBin "add" (sVar 0) (sName "a")) x ∧
      Denotes ρ σ (sBin "add" (sName "a") (sVar 0)) x :=
  ⟨ρ 0 + σ "a", .add (.var 0) (.name "a"), by
    rw [Int.add_comm]; exact .add (.name "a") (.var 0)⟩

end Verif.Props
