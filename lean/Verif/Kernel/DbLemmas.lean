import Verif.Kernel.AlphaLemmas
import Verif.Kernel.Db
/-!
# Lemmas on the re-checker's nameless terms
-/
namespace Verif.Core
open Verif.Level (Universe)

theorem Db.ind {P : Db → Prop}
    (sort : ∀ u, P (.sort u)) (var : ∀ k, P (.var k)) (glob : ∀ n, P (.glob n))
    (const : ∀ n ls, P (.const n ls)) (pi : ∀ a b, P a → P b → P (.pi a b))
    (lam : ∀ a b, P a → P b → P (.lam a b)) (app : ∀ a b, P a → P b → P (.app a b))
    (mtch : ∀ d m cs, P d → P m → (∀ c ∈ cs, P c) → P (.mtch d m cs))
    (fix : ∀ b, P b → P (.fix b)) (mfix : ∀ ds i, (∀ c ∈ ds, P c) → P (.mfix ds i))
    (letE : ∀ t v b, P t → P v → P b → P (.letE t v b)) (lit : ∀ l, P (.lit l)) (t : Db) :
    P t := by
  refine Db.rec (motive_1 := P) (motive_2 := fun cs => ∀ c ∈ cs, P c) sort var glob const pi lam app
    mtch fix mfix letE lit ?_ ?_ t
  · intro c hc; cases hc
  · intro c cs h1 h2 x hx
    rcases List.mem_cons.1 hx with rfl | hx
    · exact h1
    · exact h2 x hx

theorem nlL_eq (cs : List Db) : Db.nlL cs = cs.map Db.nl := by
  induction cs with
  | nil => rfl
  | cons c cs ih => simp [Db.nlL, ih]

theorem shiftL_eq (n : Int) (c : Nat) (cs : List Db) : shiftL n c cs = cs.map (shift n c) := by
  induction cs with
  | nil => rfl
  | cons c cs ih => simp [shiftL, ih]

theorem dsubstL_eq (cs : List Db) (j : Nat) (s : Db) : dsubstL cs j s = cs.map (fun c => dsubst c j s) := by
  induction cs with
  | nil => rfl
  | cons c cs ih => simp [dsubstL, ih]

theorem belowL_iff {n : Nat} {cs : List Db} : Db.BelowL n cs ↔ ∀ c ∈ cs, Db.Below n c := by
  induction cs with
  | nil => simp [Db.BelowL]
  | cons c cs ih => simp [Db.BelowL, ih]

theorem noFixL_iff {cs : List Db} : Db.NoFixL cs ↔ ∀ c ∈ cs, Db.NoFix c := by
  induction cs with
  | nil => simp [Db.NoFixL]
  | cons c cs ih => simp [Db.NoFixL, ih]

theorem lookup_place (x : String) (Γ : List String) (k : Nat) :
    lookup x Γ k = (place x Γ).map (· + k) := by
  induction Γ generalizing k with
  | nil => rfl
  | cons y ys ih =>
    simp only [lookup, place, beq_iff_eq]
    split
    · simp
    · rw [ih]
      cases place x ys with
      | none => rfl
      | some j => simp only [Option.map_some, Option.some.injEq]; omega

theorem ok_bind {ε α β : Type} {e : Except ε α} {f : α → Except ε β} {b : β} :
    (e >>= f) = Except.ok b ↔ ∃ a, e = .ok a ∧ f a = .ok b := by
  cases e with
  | error _ => constructor
               · intro h; cases h
               · rintro ⟨_, h, _⟩; cases h
  | ok a => exact ⟨fun h => ⟨a, rfl, h⟩, fun ⟨a', h, h'⟩ => by cases h; exact h'⟩

theorem toDbL_ok {Γ : List String} {cs : List Term} {As : List Db} :
    toDbL Γ cs = .ok As ↔ List.Forall₂ (fun c A => toDb Γ c = .ok A) cs As := by
  induction cs generalizing As with
  | nil =>
    simp only [toDbL, List.forall₂_nil_left_iff, Except.ok.injEq]
    exact eq_comm
  | cons c cs ih =>
    simp only [toDbL, ok_bind, List.forall₂_cons_left_iff, ih, Except.ok.injEq]
    constructor
    · rintro ⟨a, h1, b, h2, rfl⟩; exact ⟨a, b, h1, h2, rfl⟩
    · rintro ⟨a, b, h1, h2, rfl⟩; exact ⟨a, h1, b, h2, rfl⟩

theorem toDbD_ok {Γ : List String} {ds : List (String × Term)} {As : List Db} :
    toDbD Γ ds = .ok As ↔ List.Forall₂ (fun c A => toDb Γ c.2 = .ok A) ds As := by
  induction ds generalizing As with
  | nil =>
    simp only [toDbD, List.forall₂_nil_left_iff, Except.ok.injEq]
    exact eq_comm
  | cons c cs ih =>
    obtain ⟨n, c⟩ := c
    simp only [toDbD, ok_bind, List.forall₂_cons_left_iff, ih, Except.ok.injEq]
    constructor
    · rintro ⟨a, h1, b, h2, rfl⟩; exact ⟨a, b, h1, h2, rfl⟩
    · rintro ⟨a, b, h1, h2, rfl⟩; exact ⟨a, h1, b, h2, rfl⟩

theorem forall₂_map_eq {α β γ : Type} {f : α → γ} {g : β → γ} {xs : List α} {ys : List β} :
    xs.map f = ys.map g ↔ List.Forall₂ (fun x y => f x = g y) xs ys := by
  induction xs generalizing ys with
  | nil => cases ys <;> simp
  | cons x xs ih => cases ys <;> simp [ih]

theorem forall₂_iff_of_mem {α β : Type} {R S : α → β → Prop} {xs : List α} {ys : List β}
    (h : ∀ x ∈ xs, ∀ y, R x y ↔ S x y) : List.Forall₂ R xs ys ↔ List.Forall₂ S xs ys := by
  induction xs generalizing ys with
  | nil => cases ys <;> simp
  | cons x xs ih =>
    cases ys with
    | nil => simp
    | cons y ys =>
      simp only [List.forall₂_cons]
      rw [h x (by simp), ih (fun x hx => h x (List.mem_cons_of_mem _ hx))]

/-- The lowering finds exactly the nameless form. -/
theorem toDb_iff (t : Term) : ∀ (Γ : List String) (A : Db), toDb Γ t = .ok A ↔ nameless Γ t = Db.nl A := by
  induction t using Term.ind with
  | var x =>
    intro Γ A
    simp only [toDb, nameless, lookup_place]
    cases h : place x Γ with
    | none => cases A <;> simp [Db.nl]
    | some k => cases A <;> simp [Db.nl]
  | sort u => intro Γ A; cases A <;> simp [toDb, nameless, Db.nl]
  | lit u => intro Γ A; cases A <;> simp [toDb, nameless, Db.nl]
  | hole => intro Γ A; cases A <;> simp [toDb, nameless, Db.nl]
  | glob u => intro Γ A; cases A <;> simp [toDb, nameless, Db.nl]
  | const u ls => intro Γ A; cases A <;> simp [toDb, nameless, Db.nl]
  | app f a i1 i2 =>
    intro Γ A
    simp only [toDb, ok_bind, i1, i2, Except.ok.injEq]
    cases A <;> simp [nameless, Db.nl]
  | pi x f a i1 i2 =>
    intro Γ A
    simp only [toDb, ok_bind, i1, i2, Except.ok.injEq]
    cases A <;> simp [nameless, Db.nl]
  | lam x f a i1 i2 =>
    intro Γ A
    simp only [toDb, ok_bind, i1, i2, Except.ok.injEq]
    cases A <;> simp [nameless, Db.nl]
  | fix x a i2 =>
    intro Γ A
    simp only [toDb, ok_bind, i2, Except.ok.injEq]
    cases A <;> simp [nameless, Db.nl]
  | mfix ds i ih =>
    intro Γ A
    simp only [toDb, ok_bind, toDbD_ok, Except.ok.injEq]
    cases A <;> simp [nameless, Db.nl]
    intro _
    rw [namelessD_eq, nlL_eq, forall₂_map_eq]
    exact forall₂_iff_of_mem (fun c hc A => ih c hc _ A)
  | letE x f a b i1 i2 i3 =>
    intro Γ A
    simp only [toDb, ok_bind, i1, i2, i3, Except.ok.injEq]
    cases A <;> simp [nameless, Db.nl]
  | mtch e m cs i1 i2 i3 =>
    intro Γ A
    simp only [toDb, ok_bind, toDbL_ok, i1, i2, Except.ok.injEq]
    cases A <;> simp [nameless, Db.nl]
    intro _ _
    rw [namelessL_eq, nlL_eq, forall₂_map_eq]
    exact forall₂_iff_of_mem (fun c hc A => i3 c hc Γ A)

theorem nl_inj (A : Db) : ∀ B : Db, Db.nl A = Db.nl B → A = B := by
  have key : ∀ cs : List Db, (∀ c ∈ cs, ∀ B : Db, Db.nl c = Db.nl B → c = B) →
      ∀ ks, Db.nlL cs = Db.nlL ks → cs = ks := by
    intro cs
    induction cs with
    | nil => intro _ ks h; cases ks <;> simp_all [Db.nlL]
    | cons c cs ih =>
      intro hc ks h
      cases ks with
      | nil => simp [Db.nlL] at h
      | cons k ks =>
        simp only [Db.nlL, List.cons.injEq] at h
        rw [hc c (by simp) k h.1, ih (fun c' h' => hc c' (List.mem_cons_of_mem _ h')) ks h.2]
  induction A using Db.ind with
  | sort u => intro B h; cases B <;> simp_all [Db.nl]
  | var u => intro B h; cases B <;> simp_all [Db.nl]
  | glob u => intro B h; cases B <;> simp_all [Db.nl]
  | const u ls => intro B h; cases B <;> simp_all [Db.nl]
  | lit u => intro B h; cases B <;> simp_all [Db.nl]
  | pi a b i1 i2 => intro B h; cases B <;> simp [Db.nl] at h; rw [i1 _ h.1, i2 _ h.2]
  | lam a b i1 i2 => intro B h; cases B <;> simp [Db.nl] at h; rw [i1 _ h.1, i2 _ h.2]
  | app a b i1 i2 => intro B h; cases B <;> simp [Db.nl] at h; rw [i1 _ h.1, i2 _ h.2]
  | fix b i1 => intro B h; cases B <;> simp [Db.nl] at h; rw [i1 _ h]
  | letE a b c i1 i2 i3 => intro B h; cases B <;> simp [Db.nl] at h; rw [i1 _ h.1, i2 _ h.2.1, i3 _ h.2.2]
  | mfix ds i ih => intro B h; cases B <;> simp [Db.nl] at h; rw [key ds ih _ h.1, h.2]
  | mtch d m cs i1 i2 i3 =>
    intro B h; cases B <;> simp [Db.nl] at h; rw [i1 _ h.1, i2 _ h.2.1, key cs i3 _ h.2.2]

theorem noHoleL_iff {cs : List Term} : NoHoleL cs ↔ ∀ c ∈ cs, NoHole c := by
  induction cs with
  | nil => simp [NoHoleL]
  | cons c cs ih => simp [NoHoleL, ih]

theorem noHoleD_iff {ds : List (String × Term)} : NoHoleD ds ↔ ∀ c ∈ ds, NoHole c.2 := by
  induction ds with
  | nil => simp [NoHoleD]
  | cons c cs ih => cases c; simp [NoHoleD, ih]

theorem exists_forall₂ {α β : Type} {R : α → β → Prop} {xs : List α} :
    (∃ ys, List.Forall₂ R xs ys) ↔ ∀ x ∈ xs, ∃ y, R x y := by
  induction xs with
  | nil =>
    constructor
    · intro _ x hx; cases hx
    · intro _; exact ⟨[], .nil⟩
  | cons x xs ih =>
    simp only [List.forall_mem_cons, ← ih, List.forall₂_cons_left_iff]
    constructor
    · rintro ⟨ys, a, b, h1, h2, rfl⟩; exact ⟨⟨a, h1⟩, b, h2⟩
    · rintro ⟨⟨a, h1⟩, b, h2⟩; exact ⟨_, a, b, h1, h2, rfl⟩

/-- Exactly the closed terms without holes can be lowered. -/
theorem toDb_exists (t : Term) : ∀ (Γ : List String),
    (∃ A, toDb Γ t = .ok A) ↔ NoHole t ∧ ∀ y, occursFree y t = true → y ∈ Γ := by
  induction t using Term.ind with
  | var x =>
    intro Γ
    simp only [toDb, NoHole, true_and, occursFree, beq_iff_eq, forall_eq', lookup_place]
    cases h : place x Γ with
    | none => have := place_none.1 h; simp [this]
    | some k =>
      have : x ∈ Γ := by
        by_contra hc
        rw [place_none.2 hc] at h; cases h
      simp [this]
  | sort u => intro Γ; simp [toDb, NoHole, occursFree]
  | lit u => intro Γ; simp [toDb, NoHole, occursFree]
  | hole => intro Γ; simp [toDb, NoHole, occursFree]
  | glob u => intro Γ; simp [toDb, NoHole, occursFree]
  | const u ls => intro Γ; simp [toDb, NoHole, occursFree]
  | app f a i1 i2 =>
    intro Γ
    have h1 := i1 Γ
    have h2 := i2 Γ
    simp only [NoHole, occursFree, Bool.or_eq_true, or_imp, forall_and]
    rw [show (NoHole f ∧ NoHole a) ∧ (∀ y, occursFree y f = true → y ∈ Γ) ∧ (∀ y, occursFree y a = true → y ∈ Γ)
      ↔ (NoHole f ∧ ∀ y, occursFree y f = true → y ∈ Γ) ∧ (NoHole a ∧ ∀ y, occursFree y a = true → y ∈ Γ) by tauto,
      ← h1, ← h2]
    simp only [toDb, ok_bind]
    constructor
    · rintro ⟨_, a, h1, b, h2, -⟩; exact ⟨⟨a, h1⟩, ⟨b, h2⟩⟩
    · rintro ⟨⟨a, h1⟩, ⟨b, h2⟩⟩; exact ⟨_, a, h1, b, h2, rfl⟩
  | pi x f a i1 i2 =>
    intro Γ
    have h1 := i1 Γ
    have h2 := i2 (x :: Γ)
    have e : (∀ y, occursFree y a = true → y ∈ x :: Γ) ↔ ∀ y, (x != y && occursFree y a) = true → y ∈ Γ := by
      simp only [List.mem_cons, Bool.and_eq_true, bne_iff_ne]
      exact forall_congr' (fun y => by constructor <;> intro h h' <;> (have := @eq_comm _ x y; tauto))
    rw [e] at h2
    simp only [NoHole, occursFree, Bool.or_eq_true, or_imp, forall_and]
    rw [show (NoHole f ∧ NoHole a) ∧ (∀ y, occursFree y f = true → y ∈ Γ) ∧
      (∀ y, (x != y && occursFree y a) = true → y ∈ Γ) ↔ (NoHole f ∧ ∀ y, occursFree y f = true → y ∈ Γ) ∧
      (NoHole a ∧ ∀ y, (x != y && occursFree y a) = true → y ∈ Γ) by tauto, ← h1, ← h2]
    simp only [toDb, ok_bind]
    constructor
    · rintro ⟨_, a, h1, b, h2, -⟩; exact ⟨⟨a, h1⟩, ⟨b, h2⟩⟩
    · rintro ⟨⟨a, h1⟩, ⟨b, h2⟩⟩; exact ⟨_, a, h1, b, h2, rfl⟩
  | lam x f a i1 i2 =>
    intro Γ
    have h1 := i1 Γ
    have h2 := i2 (x :: Γ)
    have e : (∀ y, occursFree y a = true → y ∈ x :: Γ) ↔ ∀ y, (x != y && occursFree y a) = true → y ∈ Γ := by
      simp only [List.mem_cons, Bool.and_eq_true, bne_iff_ne]
      exact forall_congr' (fun y => by constructor <;> intro h h' <;> (have := @eq_comm _ x y; tauto))
    rw [e] at h2
    simp only [NoHole, occursFree, Bool.or_eq_true, or_imp, forall_and]
    rw [show (NoHole f ∧ NoHole a) ∧ (∀ y, occursFree y f = true → y ∈ Γ) ∧
      (∀ y, (x != y && occursFree y a) = true → y ∈ Γ) ↔ (NoHole f ∧ ∀ y, occursFree y f = true → y ∈ Γ) ∧
      (NoHole a ∧ ∀ y, (x != y && occursFree y a) = true → y ∈ Γ) by tauto, ← h1, ← h2]
    simp only [toDb, ok_bind]
    constructor
    · rintro ⟨_, a, h1, b, h2, -⟩; exact ⟨⟨a, h1⟩, ⟨b, h2⟩⟩
    · rintro ⟨⟨a, h1⟩, ⟨b, h2⟩⟩; exact ⟨_, a, h1, b, h2, rfl⟩
  | fix x a i2 =>
    intro Γ
    have h2 := i2 (x :: Γ)
    have e : (∀ y, occursFree y a = true → y ∈ x :: Γ) ↔ ∀ y, (x != y && occursFree y a) = true → y ∈ Γ := by
      simp only [List.mem_cons, Bool.and_eq_true, bne_iff_ne]
      exact forall_congr' (fun y => by constructor <;> intro h h' <;> (have := @eq_comm _ x y; tauto))
    rw [e] at h2
    simp only [NoHole, occursFree]
    rw [← h2]
    simp only [toDb, ok_bind]
    constructor
    · rintro ⟨_, b, h2, -⟩; exact ⟨b, h2⟩
    · rintro ⟨b, h2⟩; exact ⟨_, b, h2, rfl⟩
  | mfix ds i ih =>
    intro Γ
    simp only [NoHole, noHoleD_iff, occursFree, occursFreeD_eq, Bool.and_eq_true, List.any_eq_true,
      Bool.not_eq_true', List.contains_eq_mem, decide_eq_false_iff_not]
    have h1 : (∃ A, toDb Γ (.mfix ds i) = .ok A) ↔
        ∀ c ∈ ds, ∃ A, toDb ((names ds).reverse ++ Γ) c.2 = .ok A := by
      rw [← exists_forall₂]
      simp only [toDb, ok_bind, toDbD_ok]
      constructor
      · rintro ⟨_, a, h, -⟩; exact ⟨a, h⟩
      · rintro ⟨a, h⟩; exact ⟨_, a, h, rfl⟩
    rw [h1]
    constructor
    · intro h
      refine ⟨fun c hc => ((ih c hc _).1 (h c hc)).1, ?_⟩
      rintro y ⟨hy, c, hc, hf⟩
      have := ((ih c hc _).1 (h c hc)).2 y hf
      simp only [List.mem_append, List.mem_reverse] at this
      tauto
    · rintro ⟨h2, h3⟩ c hc
      refine (ih c hc _).2 ⟨h2 c hc, fun y hy => ?_⟩
      simp only [List.mem_append, List.mem_reverse]
      by_cases hn : y ∈ names ds
      · exact .inl hn
      · exact .inr (h3 y ⟨hn, c, hc, hy⟩)
  | letE x f g a i1 i2 i3 =>
    intro Γ
    have h1 := i1 Γ
    have h3 := i2 Γ
    have h2 := i3 (x :: Γ)
    have e : (∀ y, occursFree y a = true → y ∈ x :: Γ) ↔ ∀ y, (x != y && occursFree y a) = true → y ∈ Γ := by
      simp only [List.mem_cons, Bool.and_eq_true, bne_iff_ne]
      exact forall_congr' (fun y => by constructor <;> intro h h' <;> (have := @eq_comm _ x y; tauto))
    rw [e] at h2
    simp only [NoHole, occursFree, Bool.or_eq_true, or_imp, forall_and]
    rw [show (NoHole f ∧ NoHole g ∧ NoHole a) ∧ ((∀ y, occursFree y f = true → y ∈ Γ) ∧
        (∀ y, occursFree y g = true → y ∈ Γ)) ∧ (∀ y, (x != y && occursFree y a) = true → y ∈ Γ) ↔
      (NoHole f ∧ ∀ y, occursFree y f = true → y ∈ Γ) ∧ (NoHole g ∧ ∀ y, occursFree y g = true → y ∈ Γ) ∧
      (NoHole a ∧ ∀ y, (x != y && occursFree y a) = true → y ∈ Γ) by tauto, ← h1, ← h2, ← h3]
    simp only [toDb, ok_bind]
    constructor
    · rintro ⟨_, a, h1, b, h2, c, h3, -⟩; exact ⟨⟨a, h1⟩, ⟨b, h2⟩, ⟨c, h3⟩⟩
    · rintro ⟨⟨a, h1⟩, ⟨b, h2⟩, ⟨c, h3⟩⟩; exact ⟨_, a, h1, b, h2, c, h3, rfl⟩
  | mtch f g cs i1 i2 i3 =>
    intro Γ
    have h1 := i1 Γ
    have h2 := i2 Γ
    have h3 : (∃ A, toDbL Γ cs = .ok A) ↔ NoHoleL cs ∧ ∀ y, occursFreeL y cs = true → y ∈ Γ := by
      simp only [toDbL_ok]
      rw [exists_forall₂]
      simp only [noHoleL_iff, occursFreeL_eq, List.any_eq_true]
      constructor
      · intro h
        refine ⟨fun c hc => ((i3 c hc Γ).1 (h c hc)).1, ?_⟩
        rintro y ⟨c, hc, hf⟩
        exact ((i3 c hc Γ).1 (h c hc)).2 y hf
      · rintro ⟨h4, h5⟩ c hc
        exact (i3 c hc Γ).2 ⟨h4 c hc, fun y hy => h5 y ⟨c, hc, hy⟩⟩
    simp only [NoHole, occursFree, Bool.or_eq_true, or_imp, forall_and]
    rw [show (NoHole f ∧ NoHole g ∧ NoHoleL cs) ∧ ((∀ y, occursFree y f = true → y ∈ Γ) ∧
        (∀ y, occursFree y g = true → y ∈ Γ)) ∧ (∀ y, occursFreeL y cs = true → y ∈ Γ) ↔
      (NoHole f ∧ ∀ y, occursFree y f = true → y ∈ Γ) ∧ (NoHole g ∧ ∀ y, occursFree y g = true → y ∈ Γ) ∧
      (NoHoleL cs ∧ ∀ y, occursFreeL y cs = true → y ∈ Γ) by tauto, ← h1, ← h2, ← h3]
    simp only [toDb, ok_bind]
    constructor
    · rintro ⟨_, a, h1, b, h2, c, h3, -⟩; exact ⟨⟨a, h1⟩, ⟨b, h2⟩, ⟨c, h3⟩⟩
    · rintro ⟨⟨a, h1⟩, ⟨b, h2⟩, ⟨c, h3⟩⟩; exact ⟨_, a, h1, b, h2, c, h3, rfl⟩

/-! ### Evaluation -/

/-- The environment below `n` binders at depth `d`. -/
def push (δ : Nat → Nat → NL) (d n : Nat) : Nat → Nat → NL := fun k =>
  if k < n then fun d' => .bvar (d' - 1 - (d + n - 1 - k)) else δ (k - n)

mutual
/-- The nameless term of a de Bruijn term whose outer indices have the meanings `δ`. -/
def deval (δ : Nat → Nat → NL) (d : Nat) : Db → NL
  | .sort u => .sort u
  | .var k => δ k d
  | .glob n => .glob n
  | .const n ls => .const n ls
  | .pi a b => .pi (deval δ d a) (deval (push δ d 1) (d + 1) b)
  | .lam a b => .lam (deval δ d a) (deval (push δ d 1) (d + 1) b)
  | .app f a => .app (deval δ d f) (deval δ d a)
  | .mtch e m cs => .mtch (deval δ d e) (deval δ d m) (devalL δ d cs)
  | .fix b => .fix (deval (push δ d 1) (d + 1) b)
  | .mfix ds i => .mfix (devalL (push δ d ds.length) (d + ds.length) ds) i
  | .letE t v b => .letE (deval δ d t) (deval δ d v) (deval (push δ d 1) (d + 1) b)
  | .lit l => .lit l
/-- The same for lists. -/
def devalL (δ : Nat → Nat → NL) (d : Nat) : List Db → List NL
  | [] => []
  | c :: cs => deval δ d c :: devalL δ d cs
end

theorem devalL_eq (δ : Nat → Nat → NL) (d : Nat) (cs : List Db) : devalL δ d cs = cs.map (deval δ d) := by
  induction cs with
  | nil => rfl
  | cons c cs ih => simp [devalL, ih]

theorem push_congr {δ δ' : Nat → Nat → NL} {d m n : Nat} (h : ∀ k d', k < n → d ≤ d' → δ k d' = δ' k d') :
    ∀ k d', k < n + m → d + m ≤ d' → push δ d m k d' = push δ' d m k d' := by
  intro k d' hk hd
  simp only [push]
  split
  · rfl
  · exact h _ _ (by omega) (by omega)

theorem deval_below (t : Db) : ∀ {δ δ' : Nat → Nat → NL} {d n : Nat}, Db.Below n t →
    (∀ k d', k < n → d ≤ d' → δ k d' = δ' k d') → deval δ d t = deval δ' d t := by
  induction t using Db.ind with
  | sort u => intros; rfl
  | glob u => intros; rfl
  | const u ls => intros; rfl
  | lit u => intros; rfl
  | var k => intro δ δ' d n hb h; exact h k d hb (Nat.le_refl d)
  | pi a b i1 i2 =>
    intro δ δ' d n hb h
    simp only [Db.Below] at hb
    simp only [deval, i1 hb.1 h, i2 hb.2 (push_congr h)]
  | lam a b i1 i2 =>
    intro δ δ' d n hb h
    simp only [Db.Below] at hb
    simp only [deval, i1 hb.1 h, i2 hb.2 (push_congr h)]
  | app a b i1 i2 =>
    intro δ δ' d n hb h
    simp only [Db.Below] at hb
    simp only [deval, i1 hb.1 h, i2 hb.2 h]
  | fix b i2 =>
    intro δ δ' d n hb h
    simp only [Db.Below] at hb
    simp only [deval, i2 hb (push_congr h)]
  | letE a b c i1 i2 i3 =>
    intro δ δ' d n hb h
    simp only [Db.Below] at hb
    simp only [deval, i1 hb.1 h, i2 hb.2.1 h, i3 hb.2.2 (push_congr h)]
  | mfix ds i ih =>
    intro δ δ' d n hb h
    simp only [Db.Below, belowL_iff] at hb
    simp only [deval, devalL_eq]
    congr 1
    exact List.map_congr_left (fun c hc => ih c hc (hb c hc) (push_congr h))
  | mtch e m cs i1 i2 i3 =>
    intro δ δ' d n hb h
    simp only [Db.Below, belowL_iff] at hb
    simp only [deval, i1 hb.1 h, i2 hb.2.1 h, devalL_eq]
    congr 1
    exact List.map_congr_left (fun c hc => i3 c hc (hb.2.2 c hc) h)

theorem deval_ext (t : Db) {δ δ' : Nat → Nat → NL} (d : Nat) (h : δ = δ') : deval δ d t = deval δ' d t := by
  rw [h]

theorem push_late {δ δ' : Nat → Nat → NL} {d m : Nat} (h : ∀ k d', d ≤ d' → δ k d' = δ' k d') :
    ∀ k d', d + m ≤ d' → push δ d m k d' = push δ' d m k d' := by
  intro k d' hd
  simp only [push]
  split
  · rfl
  · exact h _ _ (by omega)

theorem deval_late (t : Db) : ∀ {δ δ' : Nat → Nat → NL} {d : Nat},
    (∀ k d', d ≤ d' → δ k d' = δ' k d') → deval δ d t = deval δ' d t := by
  induction t using Db.ind with
  | sort u => intros; rfl
  | glob u => intros; rfl
  | const u ls => intros; rfl
  | lit u => intros; rfl
  | var k => intro δ δ' d h; exact h k d (Nat.le_refl d)
  | pi a b i1 i2 => intro δ δ' d h; simp only [deval, i1 h, i2 (push_late h)]
  | lam a b i1 i2 => intro δ δ' d h; simp only [deval, i1 h, i2 (push_late h)]
  | app a b i1 i2 => intro δ δ' d h; simp only [deval, i1 h, i2 h]
  | fix b i2 => intro δ δ' d h; simp only [deval, i2 (push_late h)]
  | letE a b c i1 i2 i3 => intro δ δ' d h; simp only [deval, i1 h, i2 h, i3 (push_late h)]
  | mfix ds i ih =>
    intro δ δ' d h
    simp only [deval, devalL_eq]
    congr 1
    exact List.map_congr_left (fun c hc => ih c hc (push_late h))
  | mtch e m cs i1 i2 i3 =>
    intro δ δ' d h
    simp only [deval, i1 h, i2 h, devalL_eq]
    congr 1
    exact List.map_congr_left (fun c hc => i3 c hc h)

theorem push_shift (δ : Nat → Nat → NL) (d m n c : Nat) :
    (fun k => if k ≥ c + m then push δ d m (k + n) else push δ d m k) =
      push (fun k => if k ≥ c then δ (k + n) else δ k) d m := by
  funext k d'
  simp only [push]
  by_cases h1 : k < m
  · have : ¬ k ≥ c + m := by omega
    simp [h1, this]
  · by_cases h2 : k ≥ c + m
    · have e1 : ¬ k + n < m := by omega
      have e2 : k - m ≥ c := by omega
      have e3 : k + n - m = k - m + n := by omega
      simp [h1, h2, e1, e2, e3]
    · have e2 : ¬ k - m ≥ c := by omega
      simp [h1, h2, e2]

theorem deval_shift (t : Db) : ∀ (δ : Nat → Nat → NL) (d n c : Nat),
    deval δ d (shift n c t) = deval (fun k => if k ≥ c then δ (k + n) else δ k) d t := by
  induction t using Db.ind with
  | sort u => intros; simp [shift, deval]
  | glob u => intros; simp [shift, deval]
  | const u ls => intros; simp [shift, deval]
  | lit u => intros; simp [shift, deval]
  | var k =>
    intro δ d n c
    simp only [shift]
    by_cases h : k ≥ c
    · have : ((k : Int) + (n : Int)).toNat = k + n := by omega
      simp [h, deval, this]
    · simp [h, deval]
  | pi a b i1 i2 => intro δ d n c; simp only [shift, deval, i1, i2, push_shift]
  | lam a b i1 i2 => intro δ d n c; simp only [shift, deval, i1, i2, push_shift]
  | app a b i1 i2 => intro δ d n c; simp only [shift, deval, i1, i2]
  | fix b i2 => intro δ d n c; simp only [shift, deval, i2, push_shift]
  | letE a b c i1 i2 i3 => intro δ d n c; simp only [shift, deval, i1, i2, i3, push_shift]
  | mfix ds i ih =>
    intro δ d n c
    simp only [shift, deval, devalL_eq, shiftL_eq, List.length_map, List.map_map]
    congr 1
    refine List.map_congr_left (fun x hx => ?_)
    simp only [Function.comp]
    rw [ih x hx, push_shift]
  | mtch e m cs i1 i2 i3 =>
    intro δ d n c
    simp only [shift, deval, i1, i2, devalL_eq, shiftL_eq, List.map_map]
    congr 1
    exact List.map_congr_left (fun x hx => i3 x hx δ d n c)

mutual
/-- The index `j` does not occur. -/
def NoVar (j : Nat) : Db → Prop
  | .sort _ => True
  | .var k => k ≠ j
  | .glob _ => True
  | .const _ _ => True
  | .pi a b => NoVar j a ∧ NoVar (j + 1) b
  | .lam a b => NoVar j a ∧ NoVar (j + 1) b
  | .app f a => NoVar j f ∧ NoVar j a
  | .mtch d m cs => NoVar j d ∧ NoVar j m ∧ NoVarL j cs
  | .fix b => NoVar (j + 1) b
  | .mfix ds _ => NoVarL (j + ds.length) ds
  | .letE t v b => NoVar j t ∧ NoVar j v ∧ NoVar (j + 1) b
  | .lit _ => True
/-- The same for lists. -/
def NoVarL (j : Nat) : List Db → Prop
  | [] => True
  | c :: cs => NoVar j c ∧ NoVarL j cs
end

theorem noVarL_iff {j : Nat} {cs : List Db} : NoVarL j cs ↔ ∀ c ∈ cs, NoVar j c := by
  induction cs with
  | nil => simp [NoVarL]
  | cons c cs ih => simp [NoVarL, ih]

theorem push_unshift (δ : Nat → Nat → NL) (d m c : Nat) :
    (fun k => if k > c + m then push δ d m (k - 1) else push δ d m k) =
      push (fun k => if k > c then δ (k - 1) else δ k) d m := by
  funext k d'
  simp only [push]
  by_cases h1 : k < m
  · have : ¬ k > c + m := by omega
    simp [h1, this]
  · by_cases h2 : k > c + m
    · have e1 : ¬ k - 1 < m := by omega
      have e2 : k - m > c := by omega
      have e3 : k - 1 - m = k - m - 1 := by omega
      simp [h1, h2, e1, e2, e3]
    · have e2 : ¬ k - m > c := by omega
      simp [h1, h2, e2]

theorem deval_unshift (t : Db) : ∀ (δ : Nat → Nat → NL) (d c : Nat), NoVar c t →
    deval δ d (shift (-1) c t) = deval (fun k => if k > c then δ (k - 1) else δ k) d t := by
  induction t using Db.ind with
  | sort u => intros; simp [shift, deval]
  | glob u => intros; simp [shift, deval]
  | const u ls => intros; simp [shift, deval]
  | lit u => intros; simp [shift, deval]
  | var k =>
    intro δ d c h
    simp only [NoVar] at h
    simp only [shift]
    by_cases hk : k > c
    · have h1 : k ≥ c := by omega
      have : ((k : Int) + (-1 : Int)).toNat = k - 1 := by omega
      simp only [h1, if_true, deval, this, hk]
    · have h1 : ¬ k ≥ c := by omega
      simp only [h1, if_false, deval, hk]
  | pi a b i1 i2 =>
    intro δ d c h; simp only [NoVar] at h; simp only [shift, deval, i1 _ _ _ h.1, i2 _ _ _ h.2, push_unshift]
  | lam a b i1 i2 =>
    intro δ d c h; simp only [NoVar] at h; simp only [shift, deval, i1 _ _ _ h.1, i2 _ _ _ h.2, push_unshift]
  | app a b i1 i2 =>
    intro δ d c h; simp only [NoVar] at h; simp only [shift, deval, i1 _ _ _ h.1, i2 _ _ _ h.2]
  | fix b i2 => intro δ d c h; simp only [NoVar] at h; simp only [shift, deval, i2 _ _ _ h, push_unshift]
  | letE a b e i1 i2 i3 =>
    intro δ d c h; simp only [NoVar] at h
    simp only [shift, deval, i1 _ _ _ h.1, i2 _ _ _ h.2.1, i3 _ _ _ h.2.2, push_unshift]
  | mfix ds i ih =>
    intro δ d c h
    simp only [NoVar, noVarL_iff] at h
    simp only [shift, deval, devalL_eq, shiftL_eq, List.length_map, List.map_map]
    congr 1
    refine List.map_congr_left (fun x hx => ?_)
    simp only [Function.comp]
    rw [ih x hx _ _ _ (h x hx), push_unshift]
  | mtch e m cs i1 i2 i3 =>
    intro δ d c h
    simp only [NoVar, noVarL_iff] at h
    simp only [shift, deval, i1 _ _ _ h.1, i2 _ _ _ h.2.1, devalL_eq, shiftL_eq, List.map_map]
    congr 1
    exact List.map_congr_left (fun x hx => i3 x hx δ d c (h.2.2 x hx))

theorem push_subst (δ : Nat → Nat → NL) (u : Nat → NL) (d m j : Nat) :
    (fun k => if k = j + m then u else push δ d m k) = push (fun k => if k = j then u else δ k) d m := by
  funext k d'
  simp only [push]
  by_cases h1 : k < m
  · have : ¬ k = j + m := by omega
    simp [h1, this]
  · by_cases h2 : k = j + m
    · have e2 : k - m = j := by omega
      simp only [h1, h2, if_false, if_true]
      simp
    · have e2 : ¬ k - m = j := by omega
      simp [h1, h2, e2]

theorem deval_push_shift (δ : Nat → Nat → NL) (d d' m : Nat) (s : Db) :
    deval (push δ d m) d' (shift m 0 s) = deval δ d' s := by
  rw [deval_shift]
  refine deval_ext s d' ?_
  funext k
  simp [push]

theorem deval_subst (t : Db) : ∀ (δ : Nat → Nat → NL) (d j : Nat) (s : Db),
    deval δ d (dsubst t j s) = deval (fun k => if k = j then (fun d' => deval δ d' s) else δ k) d t := by
  induction t using Db.ind with
  | sort u => intros; simp [dsubst, deval]
  | glob u => intros; simp [dsubst, deval]
  | const u ls => intros; simp [dsubst, deval]
  | lit u => intros; simp [dsubst, deval]
  | var k =>
    intro δ d j s
    by_cases h : k = j <;> simp [dsubst, h, deval]
  | pi a b i1 i2 =>
    intro δ d j s
    have := fun d' => deval_push_shift δ d d' 1 s
    simp only [Nat.cast_one] at this
    simp only [dsubst, deval, i1, i2, this, push_subst]
  | lam a b i1 i2 =>
    intro δ d j s
    have := fun d' => deval_push_shift δ d d' 1 s
    simp only [Nat.cast_one] at this
    simp only [dsubst, deval, i1, i2, this, push_subst]
  | app a b i1 i2 => intro δ d j s; simp only [dsubst, deval, i1, i2]
  | fix b i2 =>
    intro δ d j s
    have := fun d' => deval_push_shift δ d d' 1 s
    simp only [Nat.cast_one] at this
    simp only [dsubst, deval, i2, this, push_subst]
  | letE a b c i1 i2 i3 =>
    intro δ d j s
    have := fun d' => deval_push_shift δ d d' 1 s
    simp only [Nat.cast_one] at this
    simp only [dsubst, deval, i1, i2, i3, this, push_subst]
  | mfix ds i ih =>
    intro δ d j s
    simp only [dsubst, deval, devalL_eq, dsubstL_eq, List.length_map, List.map_map]
    congr 1
    refine List.map_congr_left (fun x hx => ?_)
    simp only [Function.comp]
    rw [ih x hx]
    simp only [deval_push_shift, push_subst]
  | mtch e m cs i1 i2 i3 =>
    intro δ d j s
    simp only [dsubst, deval, i1, i2, devalL_eq, dsubstL_eq, List.map_map]
    congr 1
    exact List.map_congr_left (fun x hx => i3 x hx δ d j s)

theorem noVar_shift (t : Db) : ∀ (n c j : Nat), c ≤ j → NoVar j t → NoVar (j + n) (shift n c t) := by
  induction t using Db.ind with
  | sort u => intros; simp [shift, NoVar]
  | glob u => intros; simp [shift, NoVar]
  | const u ls => intros; simp [shift, NoVar]
  | lit u => intros; simp [shift, NoVar]
  | var k =>
    intro n c j hc h
    simp only [NoVar] at h
    simp only [shift]
    split
    · simp only [NoVar]; omega
    · simp only [NoVar]; omega
  | pi a b i1 i2 =>
    intro n c j hc h
    simp only [NoVar] at h
    simp only [shift, NoVar]
    exact ⟨i1 n c j hc h.1, by rw [Nat.add_right_comm]; exact i2 n (c + 1) (j + 1) (by omega) h.2⟩
  | lam a b i1 i2 =>
    intro n c j hc h
    simp only [NoVar] at h
    simp only [shift, NoVar]
    exact ⟨i1 n c j hc h.1, by rw [Nat.add_right_comm]; exact i2 n (c + 1) (j + 1) (by omega) h.2⟩
  | app a b i1 i2 =>
    intro n c j hc h
    simp only [NoVar] at h
    simp only [shift, NoVar]
    exact ⟨i1 n c j hc h.1, i2 n c j hc h.2⟩
  | fix b i2 =>
    intro n c j hc h
    simp only [NoVar] at h
    simp only [shift, NoVar]
    rw [Nat.add_right_comm]; exact i2 n (c + 1) (j + 1) (by omega) h
  | letE a b e i1 i2 i3 =>
    intro n c j hc h
    simp only [NoVar] at h
    simp only [shift, NoVar]
    exact ⟨i1 n c j hc h.1, i2 n c j hc h.2.1,
      by rw [Nat.add_right_comm]; exact i3 n (c + 1) (j + 1) (by omega) h.2.2⟩
  | mfix ds i ih =>
    intro n c j hc h
    simp only [NoVar, noVarL_iff] at h
    simp only [shift, NoVar, noVarL_iff, shiftL_eq, List.length_map]
    intro x hx
    obtain ⟨y, hy, rfl⟩ := List.mem_map.1 hx
    rw [Nat.add_right_comm]
    exact ih y hy n (c + ds.length) (j + ds.length) (by omega) (h y hy)
  | mtch e m cs i1 i2 i3 =>
    intro n c j hc h
    simp only [NoVar, noVarL_iff] at h
    simp only [shift, NoVar, noVarL_iff, shiftL_eq]
    refine ⟨i1 n c j hc h.1, i2 n c j hc h.2.1, fun x hx => ?_⟩
    obtain ⟨y, hy, rfl⟩ := List.mem_map.1 hx
    exact i3 y hy n c j hc (h.2.2 y hy)

theorem noVar_shifted (t : Db) : ∀ (c : Nat), NoVar c (shift 1 c t) := by
  induction t using Db.ind with
  | sort u => intros; simp [shift, NoVar]
  | glob u => intros; simp [shift, NoVar]
  | const u ls => intros; simp [shift, NoVar]
  | lit u => intros; simp [shift, NoVar]
  | var k =>
    intro c
    simp only [shift]
    split
    · simp only [NoVar]; omega
    · simp only [NoVar]; omega
  | pi a b i1 i2 => intro c; simp only [shift, NoVar]; exact ⟨i1 c, i2 (c + 1)⟩
  | lam a b i1 i2 => intro c; simp only [shift, NoVar]; exact ⟨i1 c, i2 (c + 1)⟩
  | app a b i1 i2 => intro c; simp only [shift, NoVar]; exact ⟨i1 c, i2 c⟩
  | fix b i2 => intro c; simp only [shift, NoVar]; exact i2 (c + 1)
  | letE a b e i1 i2 i3 => intro c; simp only [shift, NoVar]; exact ⟨i1 c, i2 c, i3 (c + 1)⟩
  | mfix ds i ih =>
    intro c
    simp only [shift, NoVar, noVarL_iff, shiftL_eq, List.length_map]
    intro x hx
    obtain ⟨y, hy, rfl⟩ := List.mem_map.1 hx
    exact ih y hy _
  | mtch e m cs i1 i2 i3 =>
    intro c
    simp only [shift, NoVar, noVarL_iff, shiftL_eq]
    refine ⟨i1 c, i2 c, fun x hx => ?_⟩
    obtain ⟨y, hy, rfl⟩ := List.mem_map.1 hx
    exact i3 y hy c

theorem noVar_subst (t : Db) : ∀ (j : Nat) (s : Db), NoVar j s → NoVar j (dsubst t j s) := by
  have up : ∀ (j : Nat) (s : Db), NoVar j s → NoVar (j + 1) (shift 1 0 s) := by
    intro j s h
    have := noVar_shift s 1 0 j (Nat.zero_le j) h
    simpa only [Nat.cast_one] using this
  induction t using Db.ind with
  | sort u => intros; simp [dsubst, NoVar]
  | glob u => intros; simp [dsubst, NoVar]
  | const u ls => intros; simp [dsubst, NoVar]
  | lit u => intros; simp [dsubst, NoVar]
  | var k =>
    intro j s h
    simp only [dsubst]
    split
    · exact h
    · simpa only [NoVar]
  | pi a b i1 i2 => intro j s h; simp only [dsubst, NoVar]; exact ⟨i1 j s h, i2 _ _ (up j s h)⟩
  | lam a b i1 i2 => intro j s h; simp only [dsubst, NoVar]; exact ⟨i1 j s h, i2 _ _ (up j s h)⟩
  | app a b i1 i2 => intro j s h; simp only [dsubst, NoVar]; exact ⟨i1 j s h, i2 j s h⟩
  | fix b i2 => intro j s h; simp only [dsubst, NoVar]; exact i2 _ _ (up j s h)
  | letE a b e i1 i2 i3 => intro j s h; simp only [dsubst, NoVar]; exact ⟨i1 j s h, i2 j s h, i3 _ _ (up j s h)⟩
  | mfix ds i ih =>
    intro j s h
    simp only [dsubst, NoVar, noVarL_iff, dsubstL_eq, List.length_map]
    intro x hx
    obtain ⟨y, hy, rfl⟩ := List.mem_map.1 hx
    exact ih y hy _ _ (noVar_shift s ds.length 0 j (Nat.zero_le j) h)
  | mtch e m cs i1 i2 i3 =>
    intro j s h
    simp only [dsubst, NoVar, noVarL_iff, dsubstL_eq]
    refine ⟨i1 j s h, i2 j s h, fun x hx => ?_⟩
    obtain ⟨y, hy, rfl⟩ := List.mem_map.1 hx
    exact i3 y hy j s h

/-- What opening a body means. -/
theorem deval_betaOpen (δ : Nat → Nat → NL) (d : Nat) (b a : Db) :
    deval δ d (betaOpen b a) =
      deval (fun k => if k = 0 then (fun d' => deval δ d' a) else δ (k - 1)) d b := by
  unfold betaOpen
  rw [deval_unshift _ _ _ _ (noVar_subst b 0 _ (noVar_shifted a 0)), deval_subst]
  refine deval_ext b d ?_
  funext k
  by_cases h : k = 0
  · simp only [h, if_true]
    funext d'
    have := deval_shift a (fun k => if k > 0 then δ (k - 1) else δ k) d' 1 0
    simp only [Nat.cast_one] at this
    rw [this]
    refine deval_ext a d' ?_
    funext k
    simp
  · have : k > 0 := by omega
    simp [h, this]

/-! ### The link with named terms -/

/-- The meanings of the outer indices at depth `d`. -/
def outer (d : Nat) : Nat → Nat → NL := fun k d' => .bvar (d' - d + k)

theorem push_outer (d n : Nat) : ∀ k d', d + n ≤ d' → push (outer d) d n k d' = outer (d + n) k d' := by
  intro k d' h
  simp only [push, outer]
  split
  · exact congrArg NL.bvar (by omega)
  · exact congrArg NL.bvar (by omega)

theorem nl_deval (t : Db) : ∀ d, Db.nl t = deval (outer d) d t := by
  induction t using Db.ind with
  | sort u => intros; simp [Db.nl, deval]
  | glob u => intros; simp [Db.nl, deval]
  | const u ls => intros; simp [Db.nl, deval]
  | lit u => intros; simp [Db.nl, deval]
  | var k => intro d; simp [Db.nl, deval, outer]
  | pi a b i1 i2 => intro d; rw [Db.nl, deval, deval_late b (push_outer d 1), i1 d, i2 (d + 1)]
  | lam a b i1 i2 => intro d; rw [Db.nl, deval, deval_late b (push_outer d 1), i1 d, i2 (d + 1)]
  | app a b i1 i2 => intro d; rw [Db.nl, deval, i1 d, i2 d]
  | fix b i2 => intro d; rw [Db.nl, deval, deval_late b (push_outer d 1), i2 (d + 1)]
  | letE a b c i1 i2 i3 =>
    intro d; rw [Db.nl, deval, deval_late c (push_outer d 1), i1 d, i2 d, i3 (d + 1)]
  | mfix ds i ih =>
    intro d
    simp only [Db.nl, deval, nlL_eq, devalL_eq]
    congr 1
    refine List.map_congr_left (fun x hx => ?_)
    rw [deval_late x (push_outer d ds.length)]
    exact ih x hx _
  | mtch e m cs i1 i2 i3 =>
    intro d
    simp only [Db.nl, deval, nlL_eq, devalL_eq, ← i1 d, ← i2 d]
    congr 1
    exact List.map_congr_left (fun x hx => i3 x hx d)

theorem push_place {ρ : Env} {δ : Nat → Nat → NL} {Γ : List String} {d : Nat}
    (h : ∀ y k, place y Γ = some k → ∀ d', d ≤ d' → ρ y d' = δ k d') (x : String) :
    ∀ y k, place y (x :: Γ) = some k → ∀ d', d + 1 ≤ d' → bind ρ x d y d' = push δ d 1 k d' := by
  intro y k hk d' hd
  simp only [place] at hk
  by_cases e : x = y
  · simp only [e, if_true, Option.some.injEq] at hk
    subst hk
    simp [bind, e, push]
  · simp only [e, if_false] at hk
    cases h' : place y Γ with
    | none => simp [h'] at hk
    | some j =>
      simp only [h', Option.map_some, Option.some.injEq] at hk
      subst hk
      simp only [bind, Ne.symm e, if_false, push]
      simp only [Nat.not_lt_zero, Nat.add_lt_iff_lt_sub_right, Nat.sub_self, if_false, Nat.add_sub_cancel]
      exact h y j h' d' (by omega)

theorem push_push (δ : Nat → Nat → NL) (d n : Nat) : push (push δ d 1) (d + 1) n = push δ d (n + 1) := by
  funext k d'
  simp only [push]
  by_cases h1 : k < n
  · have h2 : k < n + 1 := by omega
    simp only [h1, h2, if_true]
    congr 1; omega
  · by_cases h2 : k = n
    · subst h2
      simp
    · have h3 : ¬ k < n + 1 := by omega
      have h4 : ¬ k - n < 1 := by omega
      simp only [h1, h3, h4, if_false]
      congr 1

theorem push_places (ns : List String) : ∀ {ρ : Env} {δ : Nat → Nat → NL} {Γ : List String} {d : Nat},
    (∀ y k, place y Γ = some k → ∀ d', d ≤ d' → ρ y d' = δ k d') →
    ∀ y k, place y (ns.reverse ++ Γ) = some k → ∀ d', d + ns.length ≤ d' →
      bindAll ρ d ns y d' = push δ d ns.length k d' := by
  induction ns with
  | nil =>
    intro ρ δ Γ d h y k hk d' hd
    have := h y k (by simpa using hk) d' (by simpa using hd)
    simpa [bindAll, push] using this
  | cons x xs ih =>
    intro ρ δ Γ d h y k hk d' hd
    simp only [List.length_cons] at hd
    have := ih (push_place h x) y k (by simpa using hk) d' (by omega)
    rw [bindAll, this, push_push]; rfl

theorem sem_deval (t : Term) : ∀ {ρ : Env} {δ : Nat → Nat → NL} {Γ : List String} {d : Nat} {A : Db},
    toDb Γ t = .ok A → (∀ y k, place y Γ = some k → ∀ d', d ≤ d' → ρ y d' = δ k d') →
    sem ρ d t = deval δ d A := by
  induction t using Term.ind with
  | var x =>
    intro ρ δ Γ d A h hp
    simp only [toDb, lookup_place] at h
    cases h' : place x Γ with
    | none => simp [h'] at h
    | some k =>
      simp only [h', Option.map_some, Nat.add_zero, Except.ok.injEq] at h
      subst h
      simp only [sem, deval]
      exact hp x k h' d (Nat.le_refl d)
  | sort u => intro ρ δ Γ d A h hp; simp only [toDb, Except.ok.injEq] at h; subst h; rfl
  | lit u => intro ρ δ Γ d A h hp; simp only [toDb, Except.ok.injEq] at h; subst h; rfl
  | hole => intro ρ δ Γ d A h hp; simp [toDb] at h
  | glob u => intro ρ δ Γ d A h hp; simp only [toDb, Except.ok.injEq] at h; subst h; rfl
  | const u ls => intro ρ δ Γ d A h hp; simp only [toDb, Except.ok.injEq] at h; subst h; rfl
  | app f a i1 i2 =>
    intro ρ δ Γ d A h hp
    simp only [toDb, ok_bind, Except.ok.injEq] at h
    obtain ⟨a', h1, b', h2, rfl⟩ := h
    simp only [sem, deval, i1 h1 hp, i2 h2 hp]
  | pi x f a i1 i2 =>
    intro ρ δ Γ d A h hp
    simp only [toDb, ok_bind, Except.ok.injEq] at h
    obtain ⟨a', h1, b', h2, rfl⟩ := h
    simp only [sem, deval, i1 h1 hp, i2 h2 (push_place hp x)]
  | lam x f a i1 i2 =>
    intro ρ δ Γ d A h hp
    simp only [toDb, ok_bind, Except.ok.injEq] at h
    obtain ⟨a', h1, b', h2, rfl⟩ := h
    simp only [sem, deval, i1 h1 hp, i2 h2 (push_place hp x)]
  | fix x a i2 =>
    intro ρ δ Γ d A h hp
    simp only [toDb, ok_bind, Except.ok.injEq] at h
    obtain ⟨b', h2, rfl⟩ := h
    simp only [sem, deval, i2 h2 (push_place hp x)]
  | letE x f g a i1 i2 i3 =>
    intro ρ δ Γ d A h hp
    simp only [toDb, ok_bind, Except.ok.injEq] at h
    obtain ⟨a', h1, b', h2, c', h3, rfl⟩ := h
    simp only [sem, deval, i1 h1 hp, i2 h2 hp, i3 h3 (push_place hp x)]
  | mfix ds i ih =>
    intro ρ δ Γ d A h hp
    simp only [toDb, ok_bind, toDbD_ok, Except.ok.injEq] at h
    obtain ⟨a', h1, rfl⟩ := h
    simp only [sem, deval, semD_eq, devalL_eq]
    congr 1
    rw [forall₂_map_eq]
    have hl : ds.length = (names ds).length := by simp [names]
    have hl' : a'.length = (names ds).length := by rw [← h1.length_eq, hl]
    have hp' := push_places (names ds) hp
    rw [hl, hl']
    generalize bindAll ρ d (names ds) = ρ' at hp' ⊢
    generalize push δ d (names ds).length = δ' at hp' ⊢
    generalize d + (names ds).length = D at hp' ⊢
    generalize (names ds).reverse ++ Γ = Γ' at hp' h1
    clear hl hl'
    induction h1 with
    | nil => exact .nil
    | cons hab _ ih' =>
      exact .cons (ih _ (by simp) hab hp') (ih' (fun c hc => ih c (List.mem_cons_of_mem _ hc)))
  | mtch e m cs i1 i2 i3 =>
    intro ρ δ Γ d A h hp
    simp only [toDb, ok_bind, toDbL_ok, Except.ok.injEq] at h
    obtain ⟨a', h1, b', h2, c', h3, rfl⟩ := h
    simp only [sem, deval, i1 h1 hp, i2 h2 hp, semL_eq, devalL_eq]
    congr 1
    rw [forall₂_map_eq]
    induction h3 with
    | nil => exact .nil
    | cons hab _ ih' =>
      exact .cons (i3 _ (by simp) hab hp) (ih' (fun c hc => i3 c (List.mem_cons_of_mem _ hc)))

theorem env_outer (Γ : List String) : ∀ y k, place y Γ = some k → ∀ d', Γ.length ≤ d' →
    env Γ y d' = outer Γ.length k d' := by
  intro y k hk d' hd
  have := place_lt hk
  simp only [env, hk, outer]
  congr 1
  omega

/-- Opening a lowered body with a lowered argument is lowering the substituted body. -/
theorem toDb_betaOpen {Γ : List String} {x : String} {b s : Term} {B S : Db} (hk : Blocks b)
    (hb : toDb (x :: Γ) b = .ok B) (hs : toDb Γ s = .ok S) :
    toDb Γ (substitute b x s) = .ok (betaOpen B S) := by
  rw [toDb_iff, nameless_sem, sem_substitute hk, nl_deval _ Γ.length, deval_betaOpen]
  refine sem_deval b hb ?_
  intro y k hy d' hd
  simp only [place] at hy
  by_cases e : x = y
  · simp only [e, if_true, Option.some.injEq] at hy
    subst hy
    simp only [upd, e, if_true]
    exact sem_deval s hs (fun z j hz d'' hd' => env_outer Γ z j hz d'' (by omega))
  · simp only [e, if_false] at hy
    cases h' : place y Γ with
    | none => simp [h'] at hy
    | some j =>
      simp only [h', Option.map_some, Option.some.injEq] at hy
      subst hy
      simp only [upd, Ne.symm e, if_false, Nat.add_one_ne_zero, Nat.add_sub_cancel]
      exact env_outer Γ y j h' d' hd

/-! ### Mutual blocks -/

theorem substitute_fold (P : Nat → Term) (hP : ∀ i, Blocks (P i)) (l : List (String × Nat)) :
    ∀ (r : Term), Blocks r → l.Pairwise (fun a b => a.1 ≠ b.1) →
    (∀ e ∈ l, ∀ i, occursFree e.1 (P i) = false) → ∀ (ρ : Env) (d : Nat),
    sem ρ d (l.foldl (fun r n => substitute r n.1 (P n.2)) r) =
      sem (fun y d' => match l.find? (fun e => e.1 == y) with
        | some e => sem ρ d' (P e.2)
        | none => ρ y d') d r := by
  induction l with
  | nil => intro r _ _ _ ρ d; rfl
  | cons e l ih =>
    intro r hr hl hf ρ d
    rw [List.foldl_cons, ih _ (blocks_substitute hr _ (hP _)) (List.pairwise_cons.1 hl).2
      (fun e' he' => hf e' (List.mem_cons_of_mem _ he')), sem_substitute hr]
    congr 1
    funext y d'
    simp only [upd, List.find?_cons]
    by_cases h : y = e.1
    · subst h
      simp only [if_true, beq_self_eq_true]
      refine sem_congr _ _ (fun z hz => ?_)
      funext d''
      cases h' : l.find? (fun e => e.1 == z) with
      | none => rfl
      | some e' =>
        have h1 := List.find?_some h'
        simp only [beq_iff_eq] at h1
        have h2 := hf e' (List.mem_cons_of_mem _ (List.mem_of_find?_eq_some h')) e.2
        rw [h1] at h2
        simp [hz] at h2
    · have : (e.1 == y) = false := by simp [Ne.symm h]
      simp only [h, if_false, this]

theorem openMutual_fold (Q : Nat → Db) (hQ : ∀ i, Db.Below 0 (Q i)) (l : List Nat) :
    ∀ (r : Db) (δ : Nat → Nat → NL) (d : Nat),
    deval δ d (l.foldl (fun r k => betaOpen r (Q k)) r) =
      deval (fun q => match l[q]? with
        | some k => fun d' => deval δ d' (Q k)
        | none => δ (q - l.length)) d r := by
  induction l with
  | nil => intro r δ d; simp
  | cons e l ih =>
    intro r δ d
    rw [List.foldl_cons, ih, deval_betaOpen]
    refine deval_ext r d ?_
    funext q
    cases q with
    | zero =>
      simp only [if_true, List.getElem?_cons_zero]
      funext d'
      exact deval_below _ (hQ e) (fun k _ hk => absurd hk (Nat.not_lt_zero k))
    | succ q =>
      simp only [Nat.add_one_ne_zero, if_false, Nat.add_sub_cancel, List.getElem?_cons_succ, List.length_cons]
      cases l[q]? with
      | none => simp only []; congr 1; omega
      | some k => rfl

theorem place_some {y : String} : ∀ {Γ : List String} {k : Nat}, place y Γ = some k → Γ[k]? = some y := by
  intro Γ
  induction Γ with
  | nil => intro k h; simp [place] at h
  | cons x xs ih =>
    intro k h
    simp only [place] at h
    by_cases e : x = y
    · simp only [e, if_true, Option.some.injEq] at h
      subst h; simp [e]
    · simp only [e, if_false] at h
      cases h' : place y xs with
      | none => simp [h'] at h
      | some j =>
        simp only [h', Option.map_some, Option.some.injEq] at h
        subst h
        simpa using ih h'

theorem place_append {y : String} (Γ : List String) : ∀ (Δ : List String), y ∉ Δ →
    place y (Δ ++ Γ) = (place y Γ).map (· + Δ.length) := by
  intro Δ
  induction Δ with
  | nil => intro _; simp
  | cons x xs ih =>
    intro h
    simp only [List.mem_cons, not_or] at h
    simp only [List.cons_append, place, Ne.symm h.1, if_false, ih h.2, List.length_cons]
    cases place y Γ with
    | none => rfl
    | some j => simp [Nat.add_assoc]

theorem place_append_mem {y : String} (Γ : List String) : ∀ (Δ : List String), y ∈ Δ →
    place y (Δ ++ Γ) = place y Δ := by
  intro Δ
  induction Δ with
  | nil => intro h; cases h
  | cons x xs ih =>
    intro h
    simp only [List.cons_append, place]
    by_cases e : x = y
    · simp [e]
    · simp only [e, if_false]
      rw [ih (by simpa [Ne.symm e] using h)]

theorem find_zipIdx (ns : List String) (hn : ns.Nodup) {i : Nat} {y : String} (h : ns[i]? = some y) :
    ns.zipIdx.find? (fun e => e.1 == y) = some (y, i) := by
  rw [List.find?_eq_some_iff_getElem]
  have hi : i < ns.length := by
    by_contra hc
    rw [List.getElem?_eq_none (by omega)] at h
    cases h
  have hy : ns[i] = y := by
    rw [List.getElem?_eq_getElem hi] at h
    exact Option.some.inj h
  refine ⟨by simp, i, by simpa using hi, by simp [hy], fun j hj => ?_⟩
  simp only [List.getElem_zipIdx, Bool.not_eq_true', beq_eq_false_iff_ne]
  intro hc
  have := (List.Nodup.getElem_inj_iff hn).1 (hc.trans hy.symm)
  omega

theorem find_zipIdx_none (ns : List String) {y : String} (h : y ∉ ns) :
    ns.zipIdx.find? (fun e => e.1 == y) = none := by
  rw [List.find?_eq_none]
  rintro ⟨a, i⟩ he hc
  simp only [beq_iff_eq] at hc
  have := List.mem_zipIdx' he
  exact h (by rw [← hc, this.2]; exact List.getElem_mem _)

/-- Both unfoldings of a mutual block whose bodies mention no outer variable agree. -/
theorem toDb_unfold {Γ : List String} {ds : List (String × Term)} {DS : List Db} {i : Nat}
    (hn : (names ds).Nodup) (hb : Blocks (.mfix ds i)) (hi : i < ds.length)
    (hd : toDb Γ (.mfix ds i) = .ok (.mfix DS i)) (hc : Db.Below 0 (.mfix DS i)) :
    toDb Γ (unfoldMutual ds i) = .ok (openMutual DS i) := by
  simp only [toDb, ok_bind, toDbD_ok, Except.ok.injEq, Db.mfix.injEq, and_true] at hd
  obtain ⟨DS', h2, rfl⟩ := hd
  rename' DS' => DS
  have hlen : ds.length = DS.length := h2.length_eq
  have hnl : (names ds).length = DS.length := by rw [← hlen]; simp [names]
  have hbd : ∀ c ∈ ds, Blocks c.2 := by
    simp only [Blocks, blocksD_iff] at hb
    exact hb.2
  have hbody : (ds.map Prod.snd).getD i default = ds[i].2 := by
    simp [List.getD_eq_getElem?_getD, hi]
  have hBody : DS.getD i default = DS[i] := by
    simp [List.getD_eq_getElem?_getD, hlen ▸ hi]
  have hi2 : toDb ((names ds).reverse ++ Γ) ds[i].2 = .ok DS[i] := by
    have := List.forall₂_iff_get.1 h2
    exact this.2 i hi (hlen ▸ hi)
  rw [toDb_iff, nameless_sem, nl_deval _ Γ.length]
  unfold unfoldMutual openMutual
  rw [hbody, hBody]
  rw [substitute_fold (fun j => .mfix ds j) (fun j => by
      simp only [Blocks] at hb ⊢; exact hb) _ _ (hbd _ (List.getElem_mem hi))
    (by
      have : ((names ds).zipIdx.map Prod.fst).Nodup := by simpa using hn
      exact List.pairwise_map.1 this)
    (by
      rintro ⟨a, k⟩ he j
      have := List.mem_zipIdx' he
      have hm : a ∈ names ds := by rw [this.2]; exact List.getElem_mem _
      simp [occursFree, hm])]
  have hQ : ∀ k, Db.Below 0 (.mfix DS (DS.length - 1 - k)) := by
    intro k; simp only [Db.Below] at hc ⊢; exact hc
  rw [openMutual_fold (fun k => .mfix DS (DS.length - 1 - k)) hQ]
  refine sem_deval _ hi2 ?_
  intro y k hy d' hd'
  by_cases hm : y ∈ names ds
  · rw [place_append_mem Γ _ (by simpa using hm)] at hy
    have hk := place_some hy
    have hk' : k < (names ds).length := by
      have := place_lt hy
      simpa using this
    rw [List.getElem?_reverse hk'] at hk
    rw [find_zipIdx (names ds) hn hk]
    have hk2 : (List.range DS.length)[k]? = some k := by
      rw [List.getElem?_range]; omega
    simp only [hk2]
    rw [hnl]
    refine sem_deval _ (Γ := Γ) ?_ (fun z j hz d'' hd'' => env_outer Γ z j hz d'' (by omega))
    simp only [toDb, ok_bind, toDbD_ok]
    exact ⟨DS, h2, rfl⟩
  · rw [place_append Γ _ (by simpa using hm)] at hy
    cases h' : place y Γ with
    | none => simp [h'] at hy
    | some j =>
      simp only [h', Option.map_some, Option.some.injEq, List.length_reverse] at hy
      subst hy
      rw [find_zipIdx_none _ hm]
      have hk2 : (List.range DS.length)[j + DS.length]? = none := by
        rw [List.getElem?_eq_none]; simp
      rw [hnl]
      simp only [hk2, List.length_range, Nat.add_sub_cancel]
      exact env_outer Γ y j h' d' hd'

/-! ### Raising -/

/-- The scope of a raised term. -/
def vScope : Nat → List String
  | 0 => []
  | d + 1 => vName d :: vScope d

theorem vName_inj {a b : Nat} (h : vName a = vName b) : a = b := by
  unfold vName at h
  have := congrArg String.toList h
  simp only [String.toList_append] at this
  exact toString_inj (String.toList_inj.1 (List.append_cancel_left this))

theorem place_vScope : ∀ (d k : Nat), k < d → place (vName (d - 1 - k)) (vScope d) = some k := by
  intro d
  induction d with
  | zero => intro k h; omega
  | succ d ih =>
    intro k h
    simp only [vScope, place]
    by_cases e : k = 0
    · subst e; simp
    · have h1 : ¬ vName d = vName (d + 1 - 1 - k) := fun hc => by have := vName_inj hc; omega
      simp only [h1, if_false]
      have h2 : d + 1 - 1 - k = d - 1 - (k - 1) := by omega
      rw [h2, ih (k - 1) (by omega)]
      simp; omega

theorem fromDbL_eq (d : Nat) (cs : List Db) : fromDbL d cs = cs.map (fromDb d) := by
  induction cs with
  | nil => rfl
  | cons c cs ih => simp [fromDbL, ih]

/-- Raising and lowering again gives the term back. -/
theorem toDb_fromDb (A : Db) : ∀ d, Db.Below d A → Db.NoFix A → toDb (vScope d) (fromDb d A) = .ok A := by
  induction A using Db.ind with
  | sort u => intros; simp [fromDb, toDb]
  | glob u => intros; simp [fromDb, toDb]
  | const u ls => intros; simp [fromDb, toDb]
  | lit u => intros; simp [fromDb, toDb]
  | var k =>
    intro d h _
    simp only [fromDb, toDb, lookup_place, place_vScope d k h, Option.map_some, Nat.add_zero]
  | pi a b i1 i2 =>
    intro d h hn
    simp only [Db.Below, Db.NoFix] at h hn
    simp only [fromDb, toDb, ok_bind]
    exact ⟨a, i1 d h.1 hn.1, b, i2 (d + 1) h.2 hn.2, rfl⟩
  | lam a b i1 i2 =>
    intro d h hn
    simp only [Db.Below, Db.NoFix] at h hn
    simp only [fromDb, toDb, ok_bind]
    exact ⟨a, i1 d h.1 hn.1, b, i2 (d + 1) h.2 hn.2, rfl⟩
  | app a b i1 i2 =>
    intro d h hn
    simp only [Db.Below, Db.NoFix] at h hn
    simp only [fromDb, toDb, ok_bind]
    exact ⟨a, i1 d h.1 hn.1, b, i2 d h.2 hn.2, rfl⟩
  | fix b i2 => intro d h hn; simp [Db.NoFix] at hn
  | mfix ds i ih => intro d h hn; simp [Db.NoFix] at hn
  | letE a b c i1 i2 i3 =>
    intro d h hn
    simp only [Db.Below, Db.NoFix] at h hn
    simp only [fromDb, toDb, ok_bind]
    exact ⟨a, i1 d h.1 hn.1, b, i2 d h.2.1 hn.2.1, c, i3 (d + 1) h.2.2 hn.2.2, rfl⟩
  | mtch a b cs i1 i2 i3 =>
    intro d h hn
    simp only [Db.Below, Db.NoFix, belowL_iff, noFixL_iff] at h hn
    simp only [fromDb, toDb, ok_bind]
    refine ⟨a, i1 d h.1 hn.1, b, i2 d h.2.1 hn.2.1, cs, ?_, rfl⟩
    rw [toDbL_ok, fromDbL_eq, List.forall₂_map_left_iff, List.forall₂_same]
    exact fun c hc => i3 c hc d (h.2.2 c hc) (hn.2.2 c hc)

end Verif.Core
