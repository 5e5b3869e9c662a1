import Verif.Proof.UnifyExprLemmas
import Verif.Proof.UnifyExprSpec
/-!
# C98: applying a substitution to a formula means what it should

The full claim: in every structure, the formula `apply_subst_to_expr(e, s)` says about a valuation what
`e` says about the valuation that reads each variable as its replacement. Proved when no
quantified name is replaced by anything but a new name and no replacement is captured; `apply_subst_to_expr`
makes neither check, and the witnesses at the end are formulas whose truth changes.
-/

namespace Verif.Props
open Verif.Proof

/-! ### Specification -/

/-- A first-order structure: what constants, functions, groups, predicates (at a world), propositional letters and the
temporal operators mean, and what is said of a predicate abstracted by a lambda. -/
structure FoStructure (D : Type) where
  const : List Char → D
  fn : List Char → List D → D
  group : List D → D
  pred : List Char → Option (List Char) → List D → Prop
  atom : List Char → Prop
  unary : List Char → Prop → Prop
  binary : List Char → Prop → Prop → Prop
  lam : (D → Prop) → Prop

mutual
/-- The value of a term. -/
def termValue {D : Type} (M : FoStructure D) (v : List Char → D) : Term → D
  | .const c => M.const c
  | .var x => v x
  | .bound x => v x
  | .fn f as => M.fn f (termValues M v as)
  | .group as => M.group (termValues M v as)
/-- The values of terms. -/
def termValues {D : Type} (M : FoStructure D) (v : List Char → D) : List Term → List D
  | [] => []
  | t :: ts => termValue M v t :: termValues M v ts
end

/-- Truth of a formula. -/
def Truth {D : Type} (M : FoStructure D) : (List Char → D) → QExpr → Prop
  | v, .pred p as w => M.pred p w (termValues M v as)
  | v, .ident a b => termValue M v a = termValue M v b
  | _, .atom p => M.atom p
  | v, .bin .and a b => Truth M v a ∧ Truth M v b
  | v, .bin .or a b => Truth M v a ∨ Truth M v b
  | v, .bin .implies a b => Truth M v a → Truth M v b
  | v, .bin .iff a b => (Truth M v a ↔ Truth M v b)
  | v, .bin (.temporal op) a b => M.binary op (Truth M v a) (Truth M v b)
  | v, .un .not a => ¬ Truth M v a
  | v, .un (.temporal op) a => M.unary op (Truth M v a)
  | v, .quant .all x b => ∀ d, Truth M (fun y => if y = x then d else v y) b
  | v, .quant .ex x b => ∃ d, Truth M (fun y => if y = x then d else v y) b
  | v, .quant .lam x b => M.lam fun d => Truth M (fun y => if y = x then d else v y) b

/-- `t` is what applying `s` makes of the variable `y`. -/
def Replaces (s : Subst) (y : List Char) (t : Term) : Prop := ∃ n, applyTerm n s (.var y) = some t

/-- No quantified name is replaced by anything but a name that is not itself replaced, and no replacement in the
scope of a quantifier mentions the quantified name. -/
def Uncaptured (s : Subst) : QExpr → Prop
  | .pred _ _ _ => True
  | .ident _ _ => True
  | .atom _ => True
  | .bin _ a b => Uncaptured s a ∧ Uncaptured s b
  | .un _ a => Uncaptured s a
  | .quant _ x b => Uncaptured s b ∧ ∃ x', ((s x = none ∧ x' = x) ∨ (s x = some (.var x') ∧ s x' = none)) ∧
      ∀ y t, FreeName y b → y ≠ x → Replaces s y t → ¬ Mentions (fun w => w = x') t

/-! ### The theorem -/

section
variable {D : Type} {M : FoStructure D}

private theorem values_eq (v : List Char → D) : ∀ ts, termValues M v ts = ts.map (termValue M v)
  | [] => rfl
  | t :: ts => by rw [termValues, values_eq v ts]; rfl

private theorem value_congr {v w : List Char → D} : ∀ t, (∀ x, occurs x t = true → v x = w x) → termValue M v t = termValue M w t := by
  apply Term.ind
  · intro c _; rfl
  · intro x h; exact h x (by simp [occurs])
  · intro x h; exact h x (by simp [occurs])
  · intro f as ih h
    rw [termValue, termValue, values_eq, values_eq]
    congr 1
    exact List.map_congr_left fun a ha => ih a ha fun x hx => h x ((occursAny_iff x as).2 ⟨a, ha, hx⟩)
  · intro as ih h
    rw [termValue, termValue, values_eq, values_eq]
    congr 1
    exact List.map_congr_left fun a ha => ih a ha fun x hx => h x ((occursAny_iff x as).2 ⟨a, ha, hx⟩)

private theorem mentions_one (x : List Char) (t : Term) : Mentions (fun w => w = x) t ↔ occurs x t = true := by
  rw [mentions_iff]
  exact ⟨fun ⟨w, e, h⟩ => e ▸ h, fun h => ⟨x, rfl, h⟩⟩

private theorem mentionsSome_one (x : List Char) : ∀ ts, MentionsSome (fun w => w = x) ts ↔ ∃ t ∈ ts, occurs x t = true
  | [] => by simp [MentionsSome]
  | t :: ts => by simp [MentionsSome, mentionsSome_one x ts, mentions_one]

private theorem map_values {v w : List Char → D} {f : Term → Option Term} : ∀ {as rs : List Term},
    List.Forall₂ (fun a r => f a = some r) as rs → (∀ a ∈ as, ∀ r, f a = some r → termValue M v r = termValue M w a) →
    rs.map (termValue M v) = as.map (termValue M w)
  | _, _, .nil, _ => rfl
  | _, _, .cons h hs, k => by
    rw [List.map_cons, List.map_cons, k _ (by simp) _ h, map_values hs fun a ha => k a (List.mem_cons_of_mem _ ha)]

private theorem replaces_name {s : Subst} {n : Nat} {y : List Char} {r : Term}
    (h : applyTerm n s (.var y) = some r ∨ applyTerm n s (.bound y) = some r) (v : List Char → D) :
    ∃ u, Replaces s y u ∧ termValue M v u = termValue M v r := by
  rcases h with h | h
  · exact ⟨r, ⟨n, h⟩, rfl⟩
  · cases n with
    | zero => simp [applyTerm] at h
    | succ n =>
      rw [applyTerm] at h
      cases hs : s y with
      | none =>
        rw [hs] at h
        cases h
        exact ⟨.var y, ⟨1, by rw [applyTerm, hs]⟩, rfl⟩
      | some t =>
        rw [hs] at h
        exact ⟨r, ⟨n + 1, by rw [applyTerm, hs]; exact h⟩, rfl⟩

/-- Terms: the replaced term has the value of the term where variables are read as their replacements. -/
private theorem apply_value {s : Subst} {v w : List Char → D} : ∀ (t : Term) (n : Nat) (r : Term), applyTerm n s t = some r →
    (∀ y u, occurs y t = true → Replaces s y u → w y = termValue M v u) → termValue M v r = termValue M w t := by
  have hlist : ∀ (k : Nat) (as : List Term) (rs : List Term), (∀ a ∈ as, ∀ n r, applyTerm n s a = some r →
      (∀ y u, occurs y a = true → Replaces s y u → w y = termValue M v u) → termValue M v r = termValue M w a) →
      mapAll (applyTerm k s) as = some rs → (∀ y u, occursAny y as = true → Replaces s y u → w y = termValue M v u) →
      termValues M v rs = termValues M w as := by
    intro k as rs ih h hw
    rw [values_eq, values_eq]
    refine map_values (mapAll_some.1 h) fun a ha r hr => ih a ha k r hr ?_
    exact fun y u hy hu => hw y u ((occursAny_iff y as).2 ⟨a, ha, hy⟩) hu
  apply Term.ind
  · intro c n r h _
    cases n with
    | zero => simp [applyTerm] at h
    | succ n => rw [applyTerm] at h; cases h; rfl
  · intro x n r h hw
    obtain ⟨u, hu, e⟩ := replaces_name (M := M) (.inl h) v
    rw [← e]
    exact (hw x u (by simp [occurs]) hu).symm
  · intro x n r h hw
    obtain ⟨u, hu, e⟩ := replaces_name (M := M) (.inr h) v
    rw [← e]
    exact (hw x u (by simp [occurs]) hu).symm
  · intro f as ih n r h hw
    cases n with
    | zero => simp [applyTerm] at h
    | succ n =>
      rw [applyTerm] at h
      cases hm : mapAll (applyTerm n s) as with
      | none => rw [hm] at h; cases h
      | some rs =>
        rw [hm] at h
        cases h
        rw [termValue, termValue, hlist n as rs ih hm hw]
  · intro as ih n r h hw
    cases n with
    | zero => simp [applyTerm] at h
    | succ n =>
      rw [applyTerm] at h
      cases hm : mapAll (applyTerm n s) as with
      | none => rw [hm] at h; cases h
      | some rs =>
        rw [hm] at h
        cases h
        rw [termValue, termValue, hlist n as rs ih hm hw]

private theorem replaces_unique {s : Subst} {y : List Char} {t u : Term} (h : Replaces s y t) (k : Replaces s y u) : t = u :=
  Ev.unique h k

/-- C98: in every structure, the formula after the substitution says of a valuation `v` what the formula before says
of the valuation `w` that reads each free variable as its replacement under `v`. Missing from the full statement:
substitutions that touch quantified names (`C98_quantified_fails`, `C98_chain_fails`, `C98_capture_fails`). -/
theorem C98_apply_partial (s : Subst) (n : Nat) (e r : QExpr) (h : applyExpr n s e = some r) (hs : Uncaptured s e)
    (v w : List Char → D) (hw : ∀ y t, FreeName y e → Replaces s y t → w y = termValue M v t) :
    Truth M v r ↔ Truth M w e := by
  induction e generalizing r v w with
  | pred p as wd =>
    rw [applyExpr] at h
    cases hm : mapAll (applyTerm n s) as with
    | none => rw [hm] at h; cases h
    | some rs =>
      rw [hm] at h
      cases h
      have : termValues M v rs = termValues M w as := by
        rw [values_eq, values_eq]
        refine map_values (mapAll_some.1 hm) fun a ha r hr => apply_value a n r hr ?_
        exact fun y u hy hu => hw y u ((mentionsSome_one y as).2 ⟨a, ha, hy⟩) hu
      rw [Truth, Truth, this]
  | ident a b =>
    rw [applyExpr] at h
    split at h
    · rename_i a' b' ha hb
      cases h
      rw [Truth, Truth, apply_value a n a' ha fun y u hy hu => hw y u (.inl ((mentions_one y a).2 hy)) hu,
        apply_value b n b' hb fun y u hy hu => hw y u (.inr ((mentions_one y b).2 hy)) hu]
    · cases h
  | atom p => cases h; exact Iff.rfl
  | bin op a b iha ihb =>
    rw [applyExpr] at h
    split at h
    · rename_i a' b' ha hb
      cases h
      have h1 := iha a' ha hs.1 v w fun y u hy hu => hw y u (.inl hy) hu
      have h2 := ihb b' hb hs.2 v w fun y u hy hu => hw y u (.inr hy) hu
      cases op <;> simp only [Truth, h1, h2]
    · cases h
  | un op a iha =>
    rw [applyExpr] at h
    cases ha : applyExpr n s a with
    | none => rw [ha] at h; cases h
    | some a' =>
      rw [ha] at h
      cases h
      have h1 := iha a' ha hs v w hw
      cases op <;> simp only [Truth, h1]
  | quant q x b ih =>
    rw [applyExpr] at h
    cases hb : applyExpr n s b with
    | none => rw [hb] at h; cases h
    | some b' =>
      rw [hb] at h
      cases h
      obtain ⟨hsb, x', hx, hfree⟩ := hs
      have hnb : newBinder s x = x' := by
        unfold newBinder
        rcases hx with ⟨h1, rfl⟩ | ⟨h1, _⟩ <;> rw [h1]
      have hrx : Replaces s x (.var x') := by
        rcases hx with ⟨h1, rfl⟩ | ⟨h1, h2⟩
        · exact ⟨1, by rw [applyTerm, h1]⟩
        · exact ⟨2, by rw [applyTerm, h1]; simp only; rw [applyTerm, h2]⟩
      have key : ∀ d, Truth M (fun y => if y = x' then d else v y) b' ↔ Truth M (fun y => if y = x then d else w y) b := by
        intro d
        refine ih b' hb hsb _ _ fun y t hy ht => ?_
        by_cases e : y = x
        · subst e
          rw [replaces_unique ht hrx]
          simp [termValue]
        · rw [if_neg e, hw y t ⟨fun h => e h.symm, hy⟩ ht]
          refine value_congr t fun z hz => ?_
          have : z ≠ x' := fun h => hfree y t hy e ht ((mentions_one x' t).2 (h ▸ hz))
          rw [if_neg this]
      rw [hnb]
      cases q <;> simp only [Truth, key]

end

/-! ### Instances -/

/-- The usual instance: closed replacements for variables that the formula does not quantify. -/
theorem C98_closed_partial {D : Type} (M : FoStructure D) (s : Subst) (n : Nat) (e r : QExpr) (h : applyExpr n s e = some r)
    (hc : ∀ y t, s y = some t → ¬ Mentions (fun _ => True) t) (hq : ∀ x, Quantified x e → s x = none) (v : List Char → D) :
    Truth M v r ↔ Truth M (fun y => match s y with | some t => termValue M v t | none => v y) e := by
  have hrep : ∀ y t, Replaces s y t → t = (s y).getD (.var y) := by
    intro y t ht
    cases hs : s y with
    | none => exact replaces_unique ht ⟨1, by rw [applyTerm, hs]; rfl⟩
    | some u =>
      have hcl : ∀ w, occurs w u = true → s w = none := fun w hw => absurd ((mentions_iff _ u).2 ⟨w, trivial, hw⟩) (hc y u hs)
      obtain ⟨m, hm⟩ := Ev.closed u hcl
      exact replaces_unique ht ⟨m + 1, by rw [applyTerm, hs]; exact hm⟩
  have hsafe : ∀ e : QExpr, (∀ x, Quantified x e → s x = none) → Uncaptured s e := by
    intro e
    induction e with
    | pred => exact fun _ => trivial
    | ident => exact fun _ => trivial
    | atom => exact fun _ => trivial
    | bin op a b iha ihb => exact fun hq => ⟨iha fun x hx => hq x (.inl hx), ihb fun x hx => hq x (.inr hx)⟩
    | un op a iha => exact fun hq => iha hq
    | quant q x b ih =>
      intro hq
      refine ⟨ih fun y hy => hq y (.inr hy), x, .inl ⟨hq x (.inl rfl), rfl⟩, ?_⟩
      intro y t _ hne ht hm
      rw [hrep y t ht] at hm
      cases hs : s y with
      | none =>
        rw [hs] at hm
        exact hne hm
      | some u =>
        rw [hs] at hm
        obtain ⟨w, _, hw⟩ := (mentions_iff _ u).1 hm
        exact hc y u hs ((mentions_iff _ u).2 ⟨w, trivial, hw⟩)
  refine C98_apply_partial s n e r h (hsafe e hq) v _ fun y t _ ht => ?_
  rw [hrep y t ht]
  cases s y with
  | none => rfl
  | some u => rfl

/-- `∀x (R(x, z) → ∃y Q(y, x))` with `x ↦ x1`, `y ↦ y1` and `z ↦ f(c)`: renamed quantifiers. -/
example :
    let e := QExpr.quant .all ['x'] (.bin .implies (.pred ['R'] [.var ['x'], .var ['z']] none)
      (.quant .ex ['y'] (.pred ['Q'] [.var ['y'], .var ['x']] none)))
    let s : Subst := ((Subst.empty.insert ['x'] (.var ['x', '1'])).insert ['y'] (.var ['y', '1'])).insert ['z'] (.fn ['f'] [.const ['c']])
    Uncaptured s e ∧ applyExpr 5 s e = some (.quant .all ['x', '1'] (.bin .implies
      (.pred ['R'] [.var ['x', '1'], .fn ['f'] [.const ['c']]] none)
      (.quant .ex ['y', '1'] (.pred ['Q'] [.var ['y', '1'], .var ['x', '1']] none)))) := by
  intro e s
  have hx : Replaces s ['x'] (.var ['x', '1']) := ⟨2, rfl⟩
  have hz : Replaces s ['z'] (.fn ['f'] [.const ['c']]) := ⟨5, rfl⟩
  refine ⟨⟨⟨trivial, trivial, ['y', '1'], .inr ⟨rfl, rfl⟩, ?_⟩, ['x', '1'], .inr ⟨rfl, rfl⟩, ?_⟩, rfl⟩
  · intro y t hf hne ht
    simp only [FreeName, MentionsSome, Mentions, or_false] at hf
    rcases hf with rfl | rfl
    · exact absurd rfl hne
    · rw [replaces_unique ht hx]; simp [Mentions]
  · intro y t hf hne ht
    simp only [FreeName, MentionsSome, Mentions, or_false] at hf
    rcases hf with (rfl | rfl) | ⟨_, rfl | rfl⟩
    · exact absurd rfl hne
    · rw [replaces_unique ht hz]; simp [Mentions, MentionsSome]
    · rename_i h; exact absurd rfl h
    · exact absurd rfl hne

/-! ### Where the code does not do it -/

/-- Two individuals; `P` holds of the first, `R` of unequal pairs. -/
private def two : FoStructure Bool where
  const := fun _ => false
  fn := fun _ _ => false
  group := fun _ => false
  pred := fun p _ as => match p, as with
    | ['P'], [a] => a = true
    | ['R'], [a, b] => a ≠ b
    | _, _ => False
  atom := fun _ => False
  unary := fun _ p => p
  binary := fun _ p _ => p
  lam := fun _ => False

/-- C98 fails for quantified names: `x ↦ c` makes of the true `∃x P(x)` the false `∃x P(c)`, although `x` is not free. -/
theorem C98_quantified_fails : ∃ (M : FoStructure Bool) (s : Subst) (e r : QExpr) (n : Nat), applyExpr n s e = some r ∧
    (∀ y, ¬ FreeName y e) ∧ ∀ v, Truth M v e ∧ ¬ Truth M v r := by
  refine ⟨two, Subst.empty.insert ['x'] (.const ['c']), .quant .ex ['x'] (.pred ['P'] [.var ['x']] none), _, 3, rfl, ?_, ?_⟩
  · rintro y ⟨h1, h2⟩
    simp only [MentionsSome, Mentions, or_false, FreeName] at h2
    exact h1 h2
  · intro v
    simp [Truth, two, termValues, termValue]

/-- C98 fails for chains: with `x ↦ y`, `y ↦ z` the quantifier is renamed to `y` and its variable to `z`, so that the
closed `∃x P(x)` becomes `∃y P(z)`. -/
theorem C98_chain_fails : ∃ (M : FoStructure Bool) (s : Subst) (e r : QExpr) (n : Nat), applyExpr n s e = some r ∧
    (∀ y, ¬ FreeName y e) ∧ (∀ y t, s y = some t → ∃ z, t = .var z) ∧ ∃ v, Truth M v e ∧ ¬ Truth M v r := by
  refine ⟨two, (Subst.empty.insert ['x'] (.var ['y'])).insert ['y'] (.var ['z']), .quant .ex ['x'] (.pred ['P'] [.var ['x']] none), _,
    3, rfl, ?_, ?_, fun _ => false, ?_⟩
  · rintro y ⟨h1, h2⟩
    simp only [MentionsSome, Mentions, or_false, FreeName] at h2
    exact h1 h2
  · intro y t h
    simp only [Subst.insert, Subst.empty] at h
    split at h
    · exact ⟨_, (Option.some.inj h).symm⟩
    · split at h
      · exact ⟨_, (Option.some.inj h).symm⟩
      · cases h
  · simp [Truth, two, termValues, termValue, newBinder, Subst.insert]

/-- C98 fails for capture: `y ↦ x` makes of `∃x R(x, y)`, true of every `y`, the false `∃x R(x, x)`. -/
theorem C98_capture_fails : ∃ (M : FoStructure Bool) (s : Subst) (e r : QExpr) (n : Nat), applyExpr n s e = some r ∧
    (∀ x, Quantified x e → s x = none) ∧ ∀ v, Truth M v e ∧ ¬ Truth M v r := by
  refine ⟨two, Subst.empty.insert ['y'] (.var ['x']), .quant .ex ['x'] (.pred ['R'] [.var ['x'], .var ['y']] none), _, 3, rfl, ?_, ?_⟩
  · rintro x hx
    simp only [Quantified, or_false] at hx
    subst hx; rfl
  · intro v
    simp [Truth, two, termValues, termValue]

end Verif.Props
