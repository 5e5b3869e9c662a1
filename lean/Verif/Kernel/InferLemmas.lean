import Verif.Kernel.Infer
import Verif.Kernel.AlphaLemmas
/-!
# Accepted terms are closed
-/
namespace Verif.Core

theorem mem_fvars_subst_of {x y : String} {u : NL} (t : NL) (hy : y ∈ NL.fvars t) (hne : y ≠ x) :
    y ∈ NL.fvars (NL.subst x u t) := by
  have keyL : ∀ cs : List NL, (∀ c ∈ cs, y ∈ NL.fvars c → y ∈ NL.fvars (NL.subst x u c)) →
      y ∈ NL.fvarsL cs → y ∈ NL.fvarsL (NL.substL x u cs) := by
    intro cs
    induction cs with
    | nil => intro _ h; exact h
    | cons c cs ih =>
      intro h hm
      simp only [NL.fvarsL, NL.substL, List.mem_append] at hm ⊢
      rcases hm with hm | hm
      · exact .inl (h c (by simp) hm)
      · exact .inr (ih (fun c' hc' => h c' (List.mem_cons_of_mem _ hc')) hm)
  induction t using NL.ind with
  | sort w => simp [NL.fvars] at hy
  | bvar k => simp [NL.fvars] at hy
  | fvar z =>
    simp only [NL.fvars, List.mem_singleton] at hy
    subst hy
    simp [NL.subst, hne, NL.fvars]
  | glob n => simp [NL.fvars] at hy
  | const n ls => simp [NL.fvars] at hy
  | lit n => simp [NL.fvars] at hy
  | hole => simp [NL.fvars] at hy
  | pi a b i1 i2 => simp only [NL.fvars, NL.subst, List.mem_append] at hy ⊢; exact hy.imp i1 i2
  | lam a b i1 i2 => simp only [NL.fvars, NL.subst, List.mem_append] at hy ⊢; exact hy.imp i1 i2
  | app a b i1 i2 => simp only [NL.fvars, NL.subst, List.mem_append] at hy ⊢; exact hy.imp i1 i2
  | fix b i1 => simp only [NL.fvars, NL.subst] at hy ⊢; exact i1 hy
  | letE a b c i1 i2 i3 =>
    simp only [NL.fvars, NL.subst, List.mem_append] at hy ⊢; exact hy.imp i1 (Or.imp i2 i3)
  | mfix ds i ih => simp only [NL.fvars, NL.subst] at hy ⊢; exact keyL ds ih hy
  | mtch d m cs i1 i2 i3 =>
    simp only [NL.fvars, NL.subst, List.mem_append] at hy ⊢; exact hy.imp i1 (Or.imp i2 (keyL cs i3))

theorem occursFree_substitute {b : Term} (hb : Blocks b) {x y : String} {s : Term} (hy : occursFree y b = true)
    (hne : y ≠ x) : occursFree y (substitute b x s) = true := by
  have h := (mem_fvars_nameless b (y := y) (Γ := [])).2 ⟨hy, by simp⟩
  have h' := mem_fvars_subst_of (u := nameless [] s) _ h hne
  rw [← nameless_substitute hb] at h'
  exact ((mem_fvars_nameless _).1 h').1

theorem ok_bind' {ε α β : Type} {e : Except ε α} {f : α → Except ε β} {b : β} :
    (e >>= f) = Except.ok b ↔ ∃ a, e = .ok a ∧ f a = .ok b := by
  cases e with
  | error _ => constructor
               · intro h; cases h
               · rintro ⟨_, h, _⟩; cases h
  | ok a => exact ⟨fun h => ⟨a, rfl, h⟩, fun ⟨a', h, h'⟩ => by cases h; exact h'⟩

/-- The variables of a term are declared. -/
def Scoped (c : Ctx) (t : Term) : Prop := ∀ y, occursFree y t = true → (c.locals y).isSome = true

theorem scoped_under {c : Ctx} {x : String} {a b : Term} (h : Scoped (c.extend x a) b) {y : String}
    (hy : occursFree y b = true) (hne : x ≠ y) : (c.locals y).isSome = true := by
  have := h y hy
  simpa [Ctx.extend, Ne.symm hne] using this

theorem scoped_both {R : Rest} (hR : ∀ c t T, R.other c t = .ok T → Scoped c t) : ∀ f,
    (∀ c t T, Blocks t → inferType R f c t = .ok T → Scoped c t) ∧
    (∀ c t e, Blocks t → checkType R f c t e = .ok () → Scoped c t) := by
  intro f
  induction f with
  | zero => exact ⟨fun c t T _ h => by simp [inferType] at h, fun c t T _ h => by simp [checkType] at h⟩
  | succ f ih =>
    obtain ⟨ih1, ih2⟩ := ih
    constructor
    · intro c t T hb h
      cases t with
      | sort u => intro y hy; simp [occursFree] at hy
      | var x =>
        intro y hy
        simp only [occursFree, beq_iff_eq] at hy
        subst hy
        simp only [inferType] at h
        cases e : c.locals x with
        | none => rw [e] at h; simp [orUnbound] at h
        | some t => rfl
      | glob n => intro y hy; simp [occursFree] at hy
      | const n ls => exact hR _ _ _ (by simpa only [inferType] using h)
      | mtch d m cs => exact hR _ _ _ (by simpa only [inferType] using h)
      | fix x b => exact hR _ _ _ (by simpa only [inferType] using h)
      | mfix ds i => exact hR _ _ _ (by simpa only [inferType] using h)
      | lit l => intro y hy; simp [occursFree] at hy
      | hole => intro y hy; simp [occursFree] at hy
      | pi x a b =>
        simp only [Blocks] at hb
        simp only [inferType, ok_bind'] at h
        obtain ⟨s1, h1, _, _, s2, h2, _⟩ := h
        intro y hy
        simp only [occursFree, Bool.or_eq_true, Bool.and_eq_true, bne_iff_ne] at hy
        rcases hy with hy | hy
        · exact ih1 _ _ _ hb.1 h1 y hy
        · exact scoped_under (ih1 _ _ _ hb.2 h2) hy.2 hy.1
      | lam x a b =>
        simp only [Blocks] at hb
        simp only [inferType, ok_bind'] at h
        obtain ⟨s1, h1, _, _, s2, h2, _⟩ := h
        intro y hy
        simp only [occursFree, Bool.or_eq_true, Bool.and_eq_true, bne_iff_ne] at hy
        rcases hy with hy | hy
        · exact ih1 _ _ _ hb.1 h1 y hy
        · exact scoped_under (ih1 _ _ _ hb.2 h2) hy.2 hy.1
      | app g a =>
        simp only [Blocks] at hb
        simp only [inferType, ok_bind'] at h
        obtain ⟨s1, h1, h2⟩ := h
        intro y hy
        simp only [occursFree, Bool.or_eq_true] at hy
        rcases hy with hy | hy
        · exact ih1 _ _ _ hb.1 h1 y hy
        · revert h2
          cases exposePi R c s1 <;> intro h2 <;> first | (cases h2; done) | skip
          simp only [ok_bind'] at h2
          obtain ⟨_, h2, _⟩ := h2
          exact ih2 _ _ _ hb.2 h2 y hy
      | letE x t w b =>
        simp only [Blocks] at hb
        simp only [inferType, ok_bind'] at h
        obtain ⟨s1, h1, _, _, _, h2, h3⟩ := h
        intro y hy
        simp only [occursFree, Bool.or_eq_true, Bool.and_eq_true, bne_iff_ne] at hy
        rcases hy with (hy | hy) | hy
        · exact ih1 _ _ _ hb.1 h1 y hy
        · exact ih2 _ _ _ hb.2.1 h2 y hy
        · exact ih1 _ _ _ (blocks_substitute hb.2.2 _ hb.2.1) h3 y
            (occursFree_substitute hb.2.2 hy.2 (Ne.symm hy.1))
    · intro c t e hb h
      have plain : (do
          let i ← inferType R f c t
          compareTypes R c i e) = Except.ok () → Scoped c t := by
        intro h
        rw [ok_bind'] at h
        obtain ⟨i, h1, _⟩ := h
        exact ih1 _ _ _ hb h1
      have holed : (do
          let _ ← inferType R f c t
          (Except.ok () : Except KErr Unit)) = Except.ok () → Scoped c t := by
        intro h
        rw [ok_bind'] at h
        obtain ⟨i, h1, _⟩ := h
        exact ih1 _ _ _ hb h1
      cases t with
      | hole => intro y hy; simp [occursFree] at hy
      | lam x a b =>
        simp only [checkType] at h
        split at h
        · exact holed h
        · rename_i y d r n
          split at h
          · simp only [Blocks] at hb
            intro z hz
            simp only [occursFree, Bool.false_or, Bool.and_eq_true, bne_iff_ne] at hz
            exact scoped_under (ih2 _ _ _ hb.2 h) hz.2 hz.1
          · exact plain h
        · exact plain h
      | sort u => simp only [checkType] at h; split at h <;> [exact holed h; exact plain h]
      | var u => simp only [checkType] at h; split at h <;> [exact holed h; exact plain h]
      | glob u => simp only [checkType] at h; split at h <;> [exact holed h; exact plain h]
      | const u v => simp only [checkType] at h; split at h <;> [exact holed h; exact plain h]
      | pi u v w => simp only [checkType] at h; split at h <;> [exact holed h; exact plain h]
      | app u v => simp only [checkType] at h; split at h <;> [exact holed h; exact plain h]
      | mtch u v w => simp only [checkType] at h; split at h <;> [exact holed h; exact plain h]
      | fix u v => simp only [checkType] at h; split at h <;> [exact holed h; exact plain h]
      | mfix u v => simp only [checkType] at h; split at h <;> [exact holed h; exact plain h]
      | letE u v w z => simp only [checkType] at h; split at h <;> [exact holed h; exact plain h]
      | lit u => simp only [checkType] at h; split at h <;> [exact holed h; exact plain h]

end Verif.Core
