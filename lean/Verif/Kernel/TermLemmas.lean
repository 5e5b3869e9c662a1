import Verif.Kernel.Term
import Verif.Common.Decimal
import Mathlib.Data.List.Nodup
import Mathlib.Data.Finset.Card
import Mathlib.Data.Finset.Image
import Mathlib.Tactic.Tauto
/-!
# Substitution lemmas

Terms are read in an environment that gives every name a nameless term for each depth; this makes
substitution a change of the environment.
-/
namespace Verif.Core
open Verif.Level (Universe)

/-! ### Fresh names -/

theorem toString_inj {a b : Nat} (h : toString a = toString b) : a = b := by
  have h' := congrArg (fun s => digitsVal s.toList) h
  have key : ∀ n : Nat, (toString n).toList = dec n := by
    intro n
    change (Nat.repr n).toList = _
    simp [Nat.repr, dec]
  simpa only [key, digitsVal_dec] using h'

theorem candidate_inj {base : String} {a b : Nat} (h : candidate base a = candidate base b) : a = b := by
  have ne : ∀ n : Nat, (toString n) ≠ "" := by
    intro n e
    have h' := congrArg String.toList e
    have : (toString n).toList = dec n := by
      change (Nat.repr n).toList = _
      simp [Nat.repr, dec]
    rw [this] at h'
    exact dec_ne_nil n (by simpa using h')
  cases a with
  | zero =>
    cases b with
    | zero => rfl
    | succ b =>
      have h' : (base ++ "'") ++ "" = (base ++ "'") ++ toString (b + 1) := by
        simpa [candidate] using h
      exact absurd ((String.append_right_inj _).1 h').symm (ne _)
  | succ a =>
    cases b with
    | zero =>
      have h' : (base ++ "'") ++ toString (a + 1) = (base ++ "'") ++ "" := by
        simpa [candidate] using h
      exact absurd ((String.append_right_inj _).1 h') (ne _)
    | succ b => exact toString_inj ((String.append_right_inj _).1 h)

theorem search_spec (base : String) (avoid : List String) (f k : Nat) :
    search base avoid f k ∉ avoid ∨ ∀ j, k ≤ j → j ≤ k + f → candidate base j ∈ avoid := by
  induction f generalizing k with
  | zero =>
    by_cases h : candidate base k ∈ avoid
    · right
      intro j h1 h2
      have : j = k := by omega
      exact this ▸ h
    · exact .inl h
  | succ f ih =>
    unfold search
    split
    · rename_i h
      rcases ih (k + 1) with h' | h'
      · exact .inl h'
      · right
        intro j h1 h2
        by_cases e : j = k
        · subst e; simpa using h
        · exact h' j (by omega) (by omega)
    · rename_i h
      exact .inl (by simpa using h)

theorem search_fresh (base : String) (avoid : List String) : freshName base avoid ∉ avoid := by
  rcases search_spec base avoid avoid.length 0 with h | h
  · exact h
  · exfalso
    have hn : ((List.range (avoid.length + 1)).map (candidate base)).Nodup :=
      List.nodup_range.map (fun a b h => candidate_inj h)
    have hs : ((List.range (avoid.length + 1)).map (candidate base)) ⊆ avoid := by
      intro x hx
      obtain ⟨j, hj, rfl⟩ := List.mem_map.1 hx
      exact h j (Nat.zero_le _) (by have := List.mem_range.1 hj; omega)
    have := (List.Nodup.subperm hn hs).length_le
    simp at this

/-! ### Terms in an environment -/

/-- An environment: the nameless term of each name, at each depth. -/
abbrev Env := String → Nat → NL

/-- The environment below a binder for `x` at depth `d`. -/
def bind (ρ : Env) (x : String) (d : Nat) : Env := fun y => if y = x then fun d' => .bvar (d' - 1 - d) else ρ y

/-- The environment below the binders of a block. -/
def bindAll (ρ : Env) (d : Nat) : List String → Env
  | [] => ρ
  | x :: xs => bindAll (bind ρ x d) (d + 1) xs

/-- The environment in which `x` has another meaning. -/
def upd (ρ : Env) (x : String) (u : Nat → NL) : Env := fun y => if y = x then u else ρ y

mutual
/-- The nameless term of a term, at depth `d`. -/
def sem (ρ : Env) (d : Nat) : Term → NL
  | .var x => ρ x d
  | .sort u => .sort u
  | .lit l => .lit l
  | .hole => .hole
  | .glob n => .glob n
  | .const n ls => .const n ls
  | .app f a => .app (sem ρ d f) (sem ρ d a)
  | .pi x a b => .pi (sem ρ d a) (sem (bind ρ x d) (d + 1) b)
  | .lam x a b => .lam (sem ρ d a) (sem (bind ρ x d) (d + 1) b)
  | .fix x b => .fix (sem (bind ρ x d) (d + 1) b)
  | .mfix ds i => .mfix (semD (bindAll ρ d (names ds)) (d + ds.length) ds) i
  | .letE x t w b => .letE (sem ρ d t) (sem ρ d w) (sem (bind ρ x d) (d + 1) b)
  | .mtch e m cs => .mtch (sem ρ d e) (sem ρ d m) (semL ρ d cs)
/-- The same for cases. -/
def semL (ρ : Env) (d : Nat) : List Term → List NL
  | [] => []
  | c :: cs => sem ρ d c :: semL ρ d cs
/-- The same for bodies. -/
def semD (ρ : Env) (d : Nat) : List (String × Term) → List NL
  | [] => []
  | (_, b) :: ds => sem ρ d b :: semD ρ d ds
end

theorem semL_eq (ρ : Env) (d : Nat) (cs : List Term) : semL ρ d cs = cs.map (sem ρ d) := by
  induction cs with
  | nil => rfl
  | cons c cs ih => simp [semL, ih]

theorem semD_eq (ρ : Env) (d : Nat) (ds : List (String × Term)) :
    semD ρ d ds = ds.map (fun x => sem ρ d x.2) := by
  induction ds with
  | nil => rfl
  | cons c cs ih => cases c; simp [semD, ih]

theorem occursFreeL_eq (v : String) (cs : List Term) : occursFreeL v cs = cs.any (occursFree v) := by
  induction cs with
  | nil => rfl
  | cons c cs ih => simp [occursFreeL, ih]

theorem occursFreeD_eq (v : String) (ds : List (String × Term)) :
    occursFreeD v ds = ds.any (fun x => occursFree v x.2) := by
  induction ds with
  | nil => rfl
  | cons c cs ih => cases c; simp [occursFreeD, ih]

theorem heightL_le {cs : List Term} {n : Nat} : heightL cs ≤ n ↔ ∀ c ∈ cs, height c ≤ n := by
  induction cs with
  | nil => simp [heightL]
  | cons c cs ih =>
    simp only [heightL, List.forall_mem_cons, ← ih]
    exact Nat.max_le

theorem heightD_le {ds : List (String × Term)} {n : Nat} :
    heightD ds ≤ n ↔ ∀ x ∈ ds, height x.2 ≤ n := by
  induction ds with
  | nil => simp [heightD]
  | cons c cs ih =>
    cases c
    simp only [heightD, List.forall_mem_cons, ← ih]
    exact Nat.max_le

theorem blocksL_iff {cs : List Term} : BlocksL cs ↔ ∀ c ∈ cs, Blocks c := by
  induction cs with
  | nil => simp [BlocksL]
  | cons c cs ih => simp [BlocksL, ih]

theorem blocksD_iff {ds : List (String × Term)} : BlocksD ds ↔ ∀ x ∈ ds, Blocks x.2 := by
  induction ds with
  | nil => simp [BlocksD]
  | cons c cs ih => cases c; simp [BlocksD, ih]

theorem mem_allNamesL {y : String} {cs : List Term} : y ∈ allNamesL cs ↔ ∃ c ∈ cs, y ∈ allNames c := by
  induction cs with
  | nil => simp [allNamesL]
  | cons c cs ih => simp [allNamesL, ih]

theorem mem_allNamesD {y : String} {ds : List (String × Term)} :
    y ∈ allNamesD ds ↔ ∃ x ∈ ds, y = x.1 ∨ y ∈ allNames x.2 := by
  induction ds with
  | nil => simp [allNamesD]
  | cons c cs ih => cases c; simp [allNamesD, ih, or_assoc]

/-- Induction over terms by height. -/
theorem Term.byHeight {P : Term → Prop} (h : ∀ n, (∀ t, height t < n → P t) → ∀ t, height t = n → P t)
    (t : Term) : P t := by
  have key : ∀ n t, height t ≤ n → P t := by
    intro n
    induction n with
    | zero => intro t ht; exact h 0 (fun t ht' => absurd ht' (Nat.not_lt_zero _)) t (by omega)
    | succ n ih =>
      intro t ht
      exact h (height t) (fun u hu => ih u (by omega)) t rfl
  exact key _ t (Nat.le_refl _)

/-- Induction over terms, with the hypothesis for all members of the lists. -/
theorem Term.ind {P : Term → Prop}
    (var : ∀ x, P (.var x)) (sort : ∀ u, P (.sort u)) (lit : ∀ l, P (.lit l)) (hole : P .hole)
    (glob : ∀ n, P (.glob n)) (const : ∀ n ls, P (.const n ls))
    (app : ∀ f a, P f → P a → P (.app f a))
    (pi : ∀ x a b, P a → P b → P (.pi x a b))
    (lam : ∀ x a b, P a → P b → P (.lam x a b))
    (fix : ∀ x b, P b → P (.fix x b))
    (mfix : ∀ ds i, (∀ x ∈ ds, P x.2) → P (.mfix ds i))
    (letE : ∀ x t w b, P t → P w → P b → P (.letE x t w b))
    (mtch : ∀ d m cs, P d → P m → (∀ c ∈ cs, P c) → P (.mtch d m cs)) (t : Term) : P t := by
  refine Term.byHeight (P := P) ?_ t
  intro n ih t ht
  have m1 : ∀ a b : Nat, a ≤ Nat.max a b := fun a b => Nat.le_max_left a b
  have m2 : ∀ a b : Nat, b ≤ Nat.max a b := fun a b => Nat.le_max_right a b
  cases t with
  | var x => exact var x
  | sort u => exact sort u
  | lit l => exact lit l
  | hole => exact hole
  | glob n => exact glob n
  | const n ls => exact const n ls
  | app f a =>
    simp only [height] at ht
    exact app f a (ih _ (by have := m1 (height f) (height a); omega))
      (ih _ (by have := m2 (height f) (height a); omega))
  | pi x f a =>
    simp only [height] at ht
    exact pi x f a (ih _ (by have := m1 (height f) (height a); omega))
      (ih _ (by have := m2 (height f) (height a); omega))
  | lam x f a =>
    simp only [height] at ht
    exact lam x f a (ih _ (by have := m1 (height f) (height a); omega))
      (ih _ (by have := m2 (height f) (height a); omega))
  | fix x b =>
    simp only [height] at ht
    exact fix x b (ih _ (by omega))
  | mfix ds i =>
    simp only [height] at ht
    exact mfix ds i (fun x hx => ih _ (by
      have := heightD_le.1 (Nat.le_refl (heightD ds)) x hx
      omega))
  | letE x t w b =>
    simp only [height] at ht
    have l1 := m1 (height t) (Nat.max (height w) (height b))
    have l2 := m2 (height t) (Nat.max (height w) (height b))
    have l3 := m1 (height w) (height b)
    have l4 := m2 (height w) (height b)
    exact letE x t w b (ih _ (by omega)) (ih _ (by omega)) (ih _ (by omega))
  | mtch d m cs =>
    simp only [height] at ht
    have l1 := m1 (height d) (Nat.max (height m) (heightL cs))
    have l2 := m2 (height d) (Nat.max (height m) (heightL cs))
    have l3 := m1 (height m) (heightL cs)
    have l4 := m2 (height m) (heightL cs)
    exact mtch d m cs (ih _ (by omega)) (ih _ (by omega)) (fun c hc => ih _ (by
      have := heightL_le.1 (Nat.le_refl (heightL cs)) c hc
      omega))

/-! ### Free variables -/

theorem bindAll_not_mem {ns : List String} {y : String} (h : y ∉ ns) (ρ : Env) (d : Nat) :
    bindAll ρ d ns y = ρ y := by
  induction ns generalizing ρ d with
  | nil => rfl
  | cons x xs ih =>
    simp only [List.mem_cons, not_or] at h
    rw [bindAll, ih h.2]
    simp [bind, h.1]

theorem bindAll_congr {ns : List String} {y : String} {ρ ρ' : Env} {d : Nat}
    (h : y ∉ ns → ρ y = ρ' y) : bindAll ρ d ns y = bindAll ρ' d ns y := by
  induction ns generalizing ρ ρ' d with
  | nil => exact h (by simp)
  | cons x xs ih =>
    refine ih (fun hy => ?_)
    by_cases e : y = x
    · simp [bind, e]
    · simp only [bind, e, if_false]
      exact h (by simp [e, hy])

theorem bindAll_mem {ns : List String} (hn : ns.Nodup) {y : String} {j : Nat} (h : ns[j]? = some y)
    (ρ : Env) (d : Nat) : bindAll ρ d ns y = fun d' => .bvar (d' - 1 - (d + j)) := by
  induction ns generalizing ρ d j with
  | nil => simp at h
  | cons x xs ih =>
    rw [List.nodup_cons] at hn
    cases j with
    | zero =>
      simp only [List.getElem?_cons_zero, Option.some.injEq] at h
      subst h
      rw [bindAll, bindAll_not_mem hn.1]
      simp [bind]
    | succ j =>
      rw [bindAll, ih hn.2 (by simpa using h)]
      funext d'
      congr 1
      omega

theorem sem_congr (t : Term) : ∀ {ρ ρ' : Env} (d : Nat),
    (∀ y, occursFree y t = true → ρ y = ρ' y) → sem ρ d t = sem ρ' d t := by
  induction t using Term.ind with
  | var x => intro ρ ρ' d h; simp only [sem]; rw [h x (by simp [occursFree])]
  | sort u => intros; rfl
  | lit l => intros; rfl
  | hole => intros; rfl
  | glob n => intros; rfl
  | const n ls => intros; rfl
  | app f a i1 i2 =>
    intro ρ ρ' d h
    simp only [sem]
    rw [i1 d (fun y hy => h y (by simp [occursFree, hy])), i2 d (fun y hy => h y (by simp [occursFree, hy]))]
  | pi x a b i1 i2 =>
    intro ρ ρ' d h
    simp only [sem]
    rw [i1 d (fun y hy => h y (by simp [occursFree, hy]))]
    rw [i2 (ρ := bind ρ x d) (ρ' := bind ρ' x d) (d + 1)]
    intro y hy
    by_cases e : y = x
    · simp [bind, e]
    · simp only [bind, e, if_false]
      exact h y (by simp [occursFree, hy, Ne.symm e])
  | lam x a b i1 i2 =>
    intro ρ ρ' d h
    simp only [sem]
    rw [i1 d (fun y hy => h y (by simp [occursFree, hy]))]
    rw [i2 (ρ := bind ρ x d) (ρ' := bind ρ' x d) (d + 1)]
    intro y hy
    by_cases e : y = x
    · simp [bind, e]
    · simp only [bind, e, if_false]
      exact h y (by simp [occursFree, hy, Ne.symm e])
  | fix x b i2 =>
    intro ρ ρ' d h
    simp only [sem]
    rw [i2 (ρ := bind ρ x d) (ρ' := bind ρ' x d) (d + 1)]
    intro y hy
    by_cases e : y = x
    · simp [bind, e]
    · simp only [bind, e, if_false]
      exact h y (by simp [occursFree, hy, Ne.symm e])
  | mfix ds i ih =>
    intro ρ ρ' d h
    simp only [sem, semD_eq]
    congr 1
    refine List.map_congr_left (fun x hx => ih x hx _ (fun y hy => bindAll_congr (fun hn => h y ?_)))
    simp only [occursFree, occursFreeD_eq, Bool.and_eq_true, Bool.not_eq_true', List.contains_eq_mem,
      decide_eq_false_iff_not, List.any_eq_true]
    exact ⟨hn, x, hx, hy⟩
  | letE x t w b i1 i2 i3 =>
    intro ρ ρ' d h
    simp only [sem]
    rw [i1 d (fun y hy => h y (by simp [occursFree, hy])), i2 d (fun y hy => h y (by simp [occursFree, hy]))]
    rw [i3 (ρ := bind ρ x d) (ρ' := bind ρ' x d) (d + 1)]
    intro y hy
    by_cases e : y = x
    · simp [bind, e]
    · simp only [bind, e, if_false]
      exact h y (by simp [occursFree, hy, Ne.symm e])
  | mtch e m cs i1 i2 i3 =>
    intro ρ ρ' d h
    simp only [sem, semL_eq]
    rw [i1 d (fun y hy => h y (by simp [occursFree, hy])), i2 d (fun y hy => h y (by simp [occursFree, hy]))]
    congr 1
    refine List.map_congr_left (fun x hx => i3 x hx _ (fun y hy => h y ?_))
    simp only [occursFree, occursFreeL_eq, Bool.or_eq_true, List.any_eq_true]
    exact .inr ⟨x, hx, hy⟩

theorem occursFree_allNames (t : Term) {y : String} : occursFree y t = true → y ∈ allNames t := by
  induction t using Term.ind with
  | var x => simp only [occursFree, allNames, beq_iff_eq, List.mem_singleton]; exact fun h => h.symm
  | sort u => simp [occursFree]
  | lit l => simp [occursFree]
  | hole => simp [occursFree]
  | glob n => simp [occursFree]
  | const n ls => simp [occursFree]
  | app f a i1 i2 => simp only [occursFree, allNames, Bool.or_eq_true, List.mem_append]; tauto
  | pi x a b i1 i2 =>
    simp only [occursFree, allNames, Bool.or_eq_true, Bool.and_eq_true, List.mem_cons, List.mem_append]; tauto
  | lam x a b i1 i2 =>
    simp only [occursFree, allNames, Bool.or_eq_true, Bool.and_eq_true, List.mem_cons, List.mem_append]; tauto
  | fix x b i2 =>
    simp only [occursFree, allNames, Bool.and_eq_true, List.mem_cons]; tauto
  | mfix ds i ih =>
    simp only [occursFree, allNames, Bool.and_eq_true, occursFreeD_eq, List.any_eq_true, mem_allNamesD]
    rintro ⟨-, x, hx, h⟩
    exact ⟨x, hx, .inr (ih x hx h)⟩
  | letE x t w b i1 i2 i3 =>
    simp only [occursFree, allNames, Bool.or_eq_true, Bool.and_eq_true, List.mem_cons, List.mem_append]; tauto
  | mtch e m cs i1 i2 i3 =>
    simp only [occursFree, allNames, Bool.or_eq_true, List.mem_append, occursFreeL_eq, List.any_eq_true,
      mem_allNamesL]
    rintro ((h | h) | ⟨x, hx, h⟩)
    · exact .inl (.inl (i1 h))
    · exact .inl (.inr (i2 h))
    · exact .inr ⟨x, hx, i3 x hx h⟩

theorem freeVarsInL_mem {bound : List String} {cs : List Term} {y : String} :
    y ∈ freeVarsInL bound cs ↔ ∃ c ∈ cs, y ∈ freeVarsIn bound c := by
  induction cs with
  | nil => simp [freeVarsInL]
  | cons c cs ih => simp [freeVarsInL, ih]

theorem freeVarsInD_mem {bound : List String} {ds : List (String × Term)} {y : String} :
    y ∈ freeVarsInD bound ds ↔ ∃ x ∈ ds, y ∈ freeVarsIn bound x.2 := by
  induction ds with
  | nil => simp [freeVarsInD]
  | cons c cs ih => cases c; simp [freeVarsInD, ih]

theorem mem_freeVarsIn (t : Term) {y : String} : ∀ {bound : List String},
    y ∈ freeVarsIn bound t ↔ occursFree y t = true ∧ y ∉ bound := by
  induction t using Term.ind with
  | var x =>
    intro bound
    simp only [freeVarsIn, occursFree, beq_iff_eq, List.contains_eq_mem, decide_eq_true_eq]
    split
    · rename_i h
      simp only [List.not_mem_nil, false_iff, not_and, not_not]
      rintro rfl; exact h
    · rename_i h
      simp only [List.mem_singleton]
      exact ⟨fun e => ⟨e.symm, e ▸ h⟩, fun e => e.1.symm⟩
  | sort u => simp [occursFree, freeVarsIn]
  | lit l => simp [occursFree, freeVarsIn]
  | hole => simp [occursFree, freeVarsIn]
  | glob n => simp [occursFree, freeVarsIn]
  | const n ls => simp [occursFree, freeVarsIn]
  | app f a i1 i2 => intro bound; simp only [freeVarsIn, occursFree, List.mem_append, i1, i2, Bool.or_eq_true]; tauto
  | pi x a b i1 i2 =>
    intro bound
    simp only [freeVarsIn, occursFree, List.mem_append, i1, i2, Bool.or_eq_true, Bool.and_eq_true, bne_iff_ne,
      List.mem_cons, not_or, ne_comm (a := x) (b := y)]; tauto
  | lam x a b i1 i2 =>
    intro bound
    simp only [freeVarsIn, occursFree, List.mem_append, i1, i2, Bool.or_eq_true, Bool.and_eq_true, bne_iff_ne,
      List.mem_cons, not_or, ne_comm (a := x) (b := y)]; tauto
  | fix x b i2 =>
    intro bound
    simp only [freeVarsIn, occursFree, i2, Bool.and_eq_true, bne_iff_ne,
      List.mem_cons, not_or, ne_comm (a := x) (b := y)]; tauto
  | mfix ds i ih =>
    intro bound
    simp only [freeVarsIn, occursFree, Bool.and_eq_true, occursFreeD_eq, List.any_eq_true, freeVarsInD_mem,
      Bool.not_eq_true', List.contains_eq_mem, decide_eq_false_iff_not]
    constructor
    · rintro ⟨x, hx, h⟩
      have := (ih x hx).1 h
      simp only [List.mem_append, not_or] at this
      exact ⟨⟨this.2.1, x, hx, this.1⟩, this.2.2⟩
    · rintro ⟨⟨h1, x, hx, h⟩, h2⟩
      exact ⟨x, hx, (ih x hx).2 ⟨h, by simp [h1, h2]⟩⟩
  | letE x t w b i1 i2 i3 =>
    intro bound
    simp only [freeVarsIn, occursFree, List.mem_append, i1, i2, i3, Bool.or_eq_true, Bool.and_eq_true, bne_iff_ne,
      List.mem_cons, not_or, ne_comm (a := x) (b := y)]; tauto
  | mtch e m cs i1 i2 i3 =>
    intro bound
    simp only [freeVarsIn, occursFree, List.mem_append, i1, i2, Bool.or_eq_true, occursFreeL_eq,
      List.any_eq_true, freeVarsInL_mem]
    constructor
    · rintro ((h | h) | ⟨x, hx, h⟩)
      · tauto
      · tauto
      · have := (i3 x hx).1 h
        exact ⟨.inr ⟨x, hx, this.1⟩, this.2⟩
    · rintro ⟨(h | h) | ⟨x, hx, h⟩, hb⟩
      · tauto
      · tauto
      · exact .inr ⟨x, hx, (i3 x hx).2 ⟨h, hb⟩⟩

theorem mem_freeVars {t : Term} {y : String} : y ∈ freeVars t ↔ occursFree y t = true := by
  simp [freeVars, mem_freeVarsIn]

end Verif.Core
