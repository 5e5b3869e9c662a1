import Verif.Kernel.SubstLemmas
import Verif.Kernel.TypesEqual
/-!
# Lemmas on equality up to bound names
-/
namespace Verif.Core
open Verif.Level (Universe)

theorem NL.ind {P : NL → Prop}
    (sort : ∀ u, P (.sort u)) (bvar : ∀ k, P (.bvar k)) (fvar : ∀ x, P (.fvar x)) (glob : ∀ n, P (.glob n))
    (const : ∀ n ls, P (.const n ls)) (pi : ∀ a b, P a → P b → P (.pi a b))
    (lam : ∀ a b, P a → P b → P (.lam a b)) (app : ∀ a b, P a → P b → P (.app a b))
    (mtch : ∀ d m cs, P d → P m → (∀ c ∈ cs, P c) → P (.mtch d m cs))
    (fix : ∀ b, P b → P (.fix b)) (mfix : ∀ ds i, (∀ c ∈ ds, P c) → P (.mfix ds i))
    (letE : ∀ t v b, P t → P v → P b → P (.letE t v b)) (lit : ∀ l, P (.lit l)) (hole : P .hole) (t : NL) :
    P t := by
  refine NL.rec (motive_1 := P) (motive_2 := fun cs => ∀ c ∈ cs, P c) sort bvar fvar glob const pi lam app
    mtch fix mfix letE lit hole ?_ ?_ t
  · intro c hc; cases hc
  · intro c cs h1 h2 x hx
    rcases List.mem_cons.1 hx with rfl | hx
    · exact h1
    · exact h2 x hx

mutual
/-- The free names of a nameless term. -/
def NL.fvars : NL → List String
  | .fvar x => [x]
  | .bvar _ => []
  | .sort _ => []
  | .lit _ => []
  | .hole => []
  | .glob _ => []
  | .const _ _ => []
  | .app f a => NL.fvars f ++ NL.fvars a
  | .pi a b => NL.fvars a ++ NL.fvars b
  | .lam a b => NL.fvars a ++ NL.fvars b
  | .fix b => NL.fvars b
  | .mfix ds _ => NL.fvarsL ds
  | .letE t v b => NL.fvars t ++ (NL.fvars v ++ NL.fvars b)
  | .mtch d m cs => NL.fvars d ++ (NL.fvars m ++ NL.fvarsL cs)
/-- The same for lists. -/
def NL.fvarsL : List NL → List String
  | [] => []
  | c :: cs => NL.fvars c ++ NL.fvarsL cs
end

mutual
/-- A nameless term has a hole. -/
def NL.holes : NL → Bool
  | .fvar _ => false
  | .bvar _ => false
  | .sort _ => false
  | .lit _ => false
  | .hole => true
  | .glob _ => false
  | .const _ _ => false
  | .app f a => NL.holes f || NL.holes a
  | .pi a b => NL.holes a || NL.holes b
  | .lam a b => NL.holes a || NL.holes b
  | .fix b => NL.holes b
  | .mfix ds _ => NL.holesL ds
  | .letE t v b => NL.holes t || (NL.holes v || NL.holes b)
  | .mtch d m cs => NL.holes d || (NL.holes m || NL.holesL cs)
/-- The same for lists. -/
def NL.holesL : List NL → Bool
  | [] => false
  | c :: cs => NL.holes c || NL.holesL cs
end

theorem mem_fvarsL {y : String} {cs : List NL} : y ∈ NL.fvarsL cs ↔ ∃ c ∈ cs, y ∈ NL.fvars c := by
  induction cs with
  | nil => simp [NL.fvarsL]
  | cons c cs ih => simp [NL.fvarsL, ih]

theorem holesL_iff {cs : List NL} : NL.holesL cs = true ↔ ∃ c ∈ cs, NL.holes c = true := by
  induction cs with
  | nil => simp [NL.holesL]
  | cons c cs ih => simp [NL.holesL, ih]

theorem place_none {x : String} {Γ : List String} : place x Γ = none ↔ x ∉ Γ := by
  induction Γ with
  | nil => simp [place]
  | cons y ys ih =>
    simp only [place]
    by_cases e : y = x
    · simp [e]
    · simp [e, Ne.symm e, ih]

theorem mem_fvars_nameless (t : Term) {y : String} : ∀ {Γ : List String},
    y ∈ NL.fvars (nameless Γ t) ↔ occursFree y t = true ∧ y ∉ Γ := by
  induction t using Term.ind with
  | var x =>
    intro Γ
    simp only [nameless, occursFree, beq_iff_eq]
    cases h : place x Γ with
    | none =>
      have := place_none.1 h
      simp only [NL.fvars, List.mem_singleton]
      exact ⟨fun e => ⟨e.symm, e ▸ this⟩, fun e => e.1.symm⟩
    | some k =>
      simp only [NL.fvars, List.not_mem_nil, false_iff, not_and, not_not]
      rintro rfl
      by_contra hc
      rw [place_none.2 hc] at h
      cases h
  | sort u => simp [nameless, occursFree, NL.fvars]
  | lit u => simp [nameless, occursFree, NL.fvars]
  | hole => simp [nameless, occursFree, NL.fvars]
  | glob u => simp [nameless, occursFree, NL.fvars]
  | const u ls => simp [nameless, occursFree, NL.fvars]
  | app f a i1 i2 =>
    intro Γ; simp only [nameless, occursFree, NL.fvars, List.mem_append, i1, i2, Bool.or_eq_true]; tauto
  | pi x a b i1 i2 =>
    intro Γ
    simp only [nameless, occursFree, NL.fvars, List.mem_append, i1, i2, Bool.or_eq_true, Bool.and_eq_true,
      bne_iff_ne, List.mem_cons, not_or, ne_comm (a := x) (b := y)]; tauto
  | lam x a b i1 i2 =>
    intro Γ
    simp only [nameless, occursFree, NL.fvars, List.mem_append, i1, i2, Bool.or_eq_true, Bool.and_eq_true,
      bne_iff_ne, List.mem_cons, not_or, ne_comm (a := x) (b := y)]; tauto
  | fix x b i2 =>
    intro Γ
    simp only [nameless, occursFree, NL.fvars, i2, Bool.and_eq_true,
      bne_iff_ne, List.mem_cons, not_or, ne_comm (a := x) (b := y)]; tauto
  | mfix ds i ih =>
    intro Γ
    simp only [nameless, occursFree, NL.fvars, mem_fvarsL, namelessD_eq, List.mem_map, occursFreeD_eq,
      Bool.and_eq_true, List.any_eq_true, Bool.not_eq_true', List.contains_eq_mem, decide_eq_false_iff_not]
    constructor
    · rintro ⟨c, ⟨x, hx, rfl⟩, h⟩
      have := (ih x hx).1 h
      simp only [List.mem_append, List.mem_reverse, not_or] at this
      exact ⟨⟨this.2.1, x, hx, this.1⟩, this.2.2⟩
    · rintro ⟨⟨h1, x, hx, h⟩, h2⟩
      refine ⟨_, ⟨x, hx, rfl⟩, (ih x hx).2 ⟨h, ?_⟩⟩
      simp only [List.mem_append, List.mem_reverse, not_or]
      exact ⟨h1, h2⟩
  | letE x t w b i1 i2 i3 =>
    intro Γ
    simp only [nameless, occursFree, NL.fvars, List.mem_append, i1, i2, i3, Bool.or_eq_true, Bool.and_eq_true,
      bne_iff_ne, List.mem_cons, not_or, ne_comm (a := x) (b := y)]; tauto
  | mtch e m cs i1 i2 i3 =>
    intro Γ
    simp only [nameless, occursFree, NL.fvars, List.mem_append, i1, i2, Bool.or_eq_true, mem_fvarsL,
      namelessL_eq, List.mem_map, occursFreeL_eq, List.any_eq_true]
    constructor
    · rintro (h | h | ⟨c, ⟨x, hx, rfl⟩, h⟩)
      · tauto
      · tauto
      · have := (i3 x hx).1 h
        exact ⟨.inr ⟨x, hx, this.1⟩, this.2⟩
    · rintro ⟨(h | h) | ⟨x, hx, h⟩, hb⟩
      · tauto
      · tauto
      · exact .inr (.inr ⟨_, ⟨x, hx, rfl⟩, (i3 x hx).2 ⟨h, hb⟩⟩)

theorem mem_fvars_subst {x y : String} {u : NL} (t : NL) :
    y ∈ NL.fvars (NL.subst x u t) → (y ∈ NL.fvars t ∧ y ≠ x) ∨ y ∈ NL.fvars u := by
  induction t using NL.ind with
  | sort w => simp [NL.subst, NL.fvars]
  | bvar k => simp [NL.subst, NL.fvars]
  | fvar z =>
    simp only [NL.subst]
    split
    · exact .inr
    · rename_i h
      simp only [NL.fvars, List.mem_singleton]
      rintro rfl
      exact .inl ⟨rfl, h⟩
  | glob n => simp [NL.subst, NL.fvars]
  | const n ls => simp [NL.subst, NL.fvars]
  | pi a b i1 i2 => simp only [NL.subst, NL.fvars, List.mem_append]; tauto
  | lam a b i1 i2 => simp only [NL.subst, NL.fvars, List.mem_append]; tauto
  | app a b i1 i2 => simp only [NL.subst, NL.fvars, List.mem_append]; tauto
  | mtch d m cs i1 i2 i3 =>
    simp only [NL.subst, NL.fvars, List.mem_append, mem_fvarsL, substL_eq, List.mem_map]
    rintro (h | h | ⟨c, ⟨c', hc', rfl⟩, h⟩)
    · tauto
    · tauto
    · rcases i3 c' hc' h with h | h
      · exact .inl ⟨.inr (.inr ⟨c', hc', h.1⟩), h.2⟩
      · exact .inr h
  | fix b ih => simpa only [NL.subst, NL.fvars] using ih
  | mfix ds i ih =>
    simp only [NL.subst, NL.fvars, mem_fvarsL, substL_eq, List.mem_map]
    rintro ⟨c, ⟨c', hc', rfl⟩, h⟩
    rcases ih c' hc' h with h | h
    · exact .inl ⟨⟨c', hc', h.1⟩, h.2⟩
    · exact .inr h
  | letE t v b i1 i2 i3 => simp only [NL.subst, NL.fvars, List.mem_append]; tauto
  | lit l => simp [NL.subst, NL.fvars]
  | hole => simp [NL.subst, NL.fvars]

theorem holes_subst {x : String} {u : NL} (t : NL) :
    NL.holes (NL.subst x u t) = true → NL.holes t = true ∨ NL.holes u = true := by
  induction t using NL.ind with
  | sort w => simp [NL.subst, NL.holes]
  | bvar k => simp [NL.subst, NL.holes]
  | fvar z =>
    simp only [NL.subst]
    split
    · exact .inr
    · simp [NL.holes]
  | glob n => simp [NL.subst, NL.holes]
  | const n ls => simp [NL.subst, NL.holes]
  | pi a b i1 i2 => simp only [NL.subst, NL.holes, Bool.or_eq_true]; tauto
  | lam a b i1 i2 => simp only [NL.subst, NL.holes, Bool.or_eq_true]; tauto
  | app a b i1 i2 => simp only [NL.subst, NL.holes, Bool.or_eq_true]; tauto
  | mtch d m cs i1 i2 i3 =>
    simp only [NL.subst, NL.holes, Bool.or_eq_true, holesL_iff, substL_eq, List.mem_map]
    rintro (h | h | ⟨c, ⟨c', hc', rfl⟩, h⟩)
    · tauto
    · tauto
    · rcases i3 c' hc' h with h | h
      · exact .inl (.inr (.inr ⟨c', hc', h⟩))
      · exact .inr h
  | fix b ih => simpa only [NL.subst, NL.holes] using ih
  | mfix ds i ih =>
    simp only [NL.subst, NL.holes, holesL_iff, substL_eq, List.mem_map]
    rintro ⟨c, ⟨c', hc', rfl⟩, h⟩
    rcases ih c' hc' h with h | h
    · exact .inl ⟨c', hc', h⟩
    · exact .inr h
  | letE t v b i1 i2 i3 => simp only [NL.subst, NL.holes, Bool.or_eq_true]; tauto
  | lit l => simp [NL.subst, NL.holes]
  | hole => simp [NL.subst, NL.holes]

theorem everywhereL_iff {P : Term → Prop} {cs : List Term} :
    EverywhereL P cs ↔ ∀ c ∈ cs, Everywhere P c := by
  induction cs with
  | nil => simp [EverywhereL]
  | cons c cs ih => simp [EverywhereL, ih]

theorem everywhereD_iff {P : Term → Prop} {ds : List (String × Term)} :
    EverywhereD P ds ↔ ∀ c ∈ ds, Everywhere P c.2 := by
  induction ds with
  | nil => simp [EverywhereD]
  | cons c cs ih => cases c; simp [EverywhereD, ih]

theorem everywhere_top {P : Term → Prop} {t : Term} (h : Everywhere P t) : P t := by
  cases t <;> simp only [Everywhere] at h <;> first | exact h | exact h.1

theorem holes_nameless (t : Term) : ∀ {Γ : List String}, Everywhere Solid t →
    NL.holes (nameless Γ t) = false := by
  induction t using Term.ind with
  | var x => intro Γ _; simp only [nameless]; split <;> rfl
  | sort u => intros; rfl
  | lit u => intros; rfl
  | hole => intro Γ h; simp [Everywhere, Solid] at h
  | glob u => intros; rfl
  | const u ls => intros; rfl
  | app f a i1 i2 => intro Γ h; simp only [Everywhere] at h; simp [nameless, NL.holes, i1 h.2.1, i2 h.2.2]
  | pi x a b i1 i2 => intro Γ h; simp only [Everywhere] at h; simp [nameless, NL.holes, i1 h.2.1, i2 h.2.2]
  | lam x a b i1 i2 => intro Γ h; simp only [Everywhere] at h; simp [nameless, NL.holes, i1 h.2.1, i2 h.2.2]
  | fix x b i2 => intro Γ h; simp only [Everywhere] at h; simp [nameless, NL.holes, i2 h.2]
  | mfix ds i ih =>
    intro Γ h
    simp only [Everywhere, everywhereD_iff] at h
    rw [Bool.eq_false_iff]
    simp only [nameless, NL.holes, ne_eq, holesL_iff, namelessD_eq, List.mem_map]
    rintro ⟨c, ⟨x, hx, rfl⟩, hh⟩
    rw [ih x hx (h.2 x hx)] at hh; cases hh
  | letE x t w b i1 i2 i3 =>
    intro Γ h; simp only [Everywhere] at h; simp [nameless, NL.holes, i1 h.2.1, i2 h.2.2.1, i3 h.2.2.2]
  | mtch e m cs i1 i2 i3 =>
    intro Γ h
    simp only [Everywhere, everywhereL_iff] at h
    rw [Bool.eq_false_iff]
    simp only [nameless, NL.holes, Bool.or_eq_true, ne_eq, holesL_iff, namelessL_eq, List.mem_map, i1 h.2.1,
      i2 h.2.2.1, Bool.false_eq_true, false_or]
    rintro ⟨c, ⟨x, hx, rfl⟩, hh⟩
    rw [i3 x hx (h.2.2.2 x hx)] at hh; cases hh

theorem occursFree_rename {d : Term} (hd : Blocks d) {x y z : String}
    (h : occursFree z (substitute d y (.var x)) = true) : (occursFree z d = true ∧ z ≠ y) ∨ z = x := by
  have h' := (mem_fvars_nameless (substitute d y (.var x)) (y := z) (Γ := [])).2 ⟨h, by simp⟩
  rw [nameless_substitute hd] at h'
  rcases mem_fvars_subst _ h' with h' | h'
  · exact .inl ⟨((mem_fvars_nameless d).1 h'.1).1, h'.2⟩
  · exact .inr (by simpa [nameless, place, NL.fvars] using h')

theorem holes_rename {d : Term} (hd : Blocks d) {x y : String} (h : NL.holes (nameless [] d) = false) :
    NL.holes (nameless [] (substitute d y (.var x))) = false := by
  rw [Bool.eq_false_iff]
  intro h'
  rw [nameless_substitute hd] at h'
  rcases holes_subst _ h' with h' | h'
  · rw [h] at h'; cases h'
  · simp [nameless, place, NL.holes] at h'

/-- Renaming a bound variable to a name that is not free gives the same nameless term. -/
theorem nameless_rename {d : Term} (hd : Blocks d) {x y : String} (h : x = y ∨ ¬ occursFree x d = true)
    (Γ : List String) : nameless (x :: Γ) (substitute d y (.var x)) = nameless (y :: Γ) d := by
  rw [nameless_sem, nameless_sem d, sem_substitute hd, env_cons, env_cons]
  refine sem_congr d _ (fun z hz => ?_)
  by_cases e : z = y
  · subst e; funext d'; simp [upd, sem, bind]
  · have hzx : z ≠ x := by
      rintro rfl
      rcases h with h | h
      · exact e h
      · exact h hz
    simp [upd, bind, e, hzx]

theorem Literal.same_iff {l m : Literal} (h : Solid (.lit l)) : Literal.same l m = true ↔ l = m := by
  cases l <;> simp_all [Literal.same, Solid]

theorem holes_any (t : Term) : ∀ (Γ Δ : List String), NL.holes (nameless Γ t) = NL.holes (nameless Δ t) := by
  induction t using Term.ind with
  | var x =>
    intro Γ Δ
    have : ∀ Γ, NL.holes (nameless Γ (.var x)) = false := by
      intro Γ; simp only [nameless]; split <;> rfl
    rw [this, this]
  | sort u => intros; rfl
  | lit u => intros; rfl
  | hole => intros; rfl
  | glob u => intros; rfl
  | const u ls => intros; rfl
  | app f a i1 i2 => intro Γ Δ; simp only [nameless, NL.holes, i1 Γ Δ, i2 Γ Δ]
  | pi x a b i1 i2 => intro Γ Δ; simp only [nameless, NL.holes, i1 Γ Δ, i2 (x :: Γ) (x :: Δ)]
  | lam x a b i1 i2 => intro Γ Δ; simp only [nameless, NL.holes, i1 Γ Δ, i2 (x :: Γ) (x :: Δ)]
  | fix x b i2 => intro Γ Δ; simp only [nameless, NL.holes, i2 (x :: Γ) (x :: Δ)]
  | mfix ds i ih =>
    intro Γ Δ
    simp only [nameless, NL.holes]
    rw [Bool.eq_iff_iff, holesL_iff, holesL_iff]
    simp only [namelessD_eq, List.mem_map]
    constructor <;> rintro ⟨c, ⟨x, hx, rfl⟩, h⟩
    · exact ⟨_, ⟨x, hx, rfl⟩, (ih x hx _ _).symm.trans h⟩
    · exact ⟨_, ⟨x, hx, rfl⟩, (ih x hx _ _).trans h⟩
  | letE x t w b i1 i2 i3 =>
    intro Γ Δ; simp only [nameless, NL.holes, i1 Γ Δ, i2 Γ Δ, i3 (x :: Γ) (x :: Δ)]
  | mtch e m cs i1 i2 i3 =>
    intro Γ Δ
    simp only [nameless, NL.holes, i1 Γ Δ, i2 Γ Δ]
    congr 2
    rw [Bool.eq_iff_iff, holesL_iff, holesL_iff]
    simp only [namelessL_eq, List.mem_map]
    constructor <;> rintro ⟨c, ⟨x, hx, rfl⟩, h⟩
    · exact ⟨_, ⟨x, hx, rfl⟩, (i3 x hx _ _).symm.trans h⟩
    · exact ⟨_, ⟨x, hx, rfl⟩, (i3 x hx _ _).trans h⟩

theorem mem_bindersL {y : String} {cs : List Term} : y ∈ bindersL cs ↔ ∃ c ∈ cs, y ∈ binders c := by
  induction cs with
  | nil => simp [bindersL]
  | cons c cs ih => simp [bindersL, ih]

theorem under_binder {x y : String} {b d : Term} (hd : Blocks d) (hs : x ∉ binders b)
    (hb : ∀ z ∈ binders b, ¬ (occursFree z d = true ∧ y ≠ z)) :
    ∀ z ∈ binders b, ¬ occursFree z (substitute d y (.var x)) = true := by
  intro z hz h
  rcases occursFree_rename hd h with h | rfl
  · exact hb z hz ⟨h.1, Ne.symm h.2⟩
  · exact hs hz

/-- What the test accepts are the same nameless terms, below any binders. -/
theorem typesEqual_sound (a : Term) : ∀ (b : Term) (Γ : List String), Everywhere Solid a →
    Everywhere NoShadow a → NL.holes (nameless [] b) = false → Blocks b →
    (∀ x ∈ binders a, ¬ occursFree x b = true) → typesEqual a b = true →
    Alpha (nameless Γ a) (nameless Γ b) := by
  induction a using Term.ind with
  | var x =>
    intro b Γ hs hn hh hk hf h
    cases b <;> simp [typesEqual] at h
    · subst h
      simp only [nameless]
      split <;> simp [Alpha]
    · simp [nameless, NL.holes] at hh
  | sort u =>
    intro b Γ hs hn hh hk hf h
    cases b <;> simp [typesEqual] at h
    · simpa [nameless, Alpha] using h
    · simp [nameless, NL.holes] at hh
  | lit u =>
    intro b Γ hs hn hh hk hf h
    cases b <;> simp [typesEqual] at h
    · rw [Literal.same_iff hs] at h
      simp [nameless, Alpha, h]
    · simp [nameless, NL.holes] at hh
  | hole => intro b Γ hs; simp [Everywhere, Solid] at hs
  | glob u =>
    intro b Γ hs hn hh hk hf h
    cases b <;> simp [typesEqual] at h
    · simp [nameless, Alpha, h]
    · simp [nameless, NL.holes] at hh
  | const u ls =>
    intro b Γ hs hn hh hk hf h
    cases b <;> simp [typesEqual] at h
    simp [nameless, NL.holes] at hh
  | app f a i1 i2 =>
    intro b Γ hs hn hh hk hf h
    simp only [Everywhere] at hs hn
    simp only [binders, List.mem_append] at hf
    cases b <;> simp [typesEqual] at h
    · rename_i g c
      simp only [nameless, NL.holes, Bool.or_eq_false_iff] at hh
      simp only [Blocks] at hk
      simp only [occursFree, Bool.or_eq_true, not_or] at hf
      simp only [nameless, Alpha]
      exact ⟨i1 g Γ hs.2.1 hn.2.1 hh.1 hk.1 (fun x hx => (hf x (.inl hx)).1) h.1,
        i2 c Γ hs.2.2 hn.2.2 hh.2 hk.2 (fun x hx => (hf x (.inr hx)).2) h.2⟩
    · simp [nameless, NL.holes] at hh
  | pi x a b i1 i2 =>
    intro t Γ hs hn hh hk hf h
    simp only [Everywhere] at hs hn
    simp only [binders, List.mem_cons, List.mem_append] at hf
    cases t <;> simp [typesEqual] at h
    · rename_i y c d
      simp only [nameless, NL.holes, Bool.or_eq_false_iff] at hh
      simp only [Blocks] at hk
      simp only [occursFree, Bool.or_eq_true, not_or, Bool.and_eq_true, bne_iff_ne] at hf
      simp only [nameless, Alpha]
      have hd : NL.holes (nameless [] d) = false := by rw [holes_any d [] [y]]; exact hh.2
      refine ⟨i1 c Γ hs.2.1 hn.2.1 hh.1 hk.1 (fun x hx => (hf x (.inr (.inl hx))).1) h.1, ?_⟩
      have := i2 _ (x :: Γ) hs.2.2 hn.2.2 (holes_rename hk.2 hd)
        (blocks_substitute hk.2 y (by simp [Blocks]))
        (under_binder hk.2 hn.1 (fun z hz hz' => (hf z (.inr (.inr hz))).2 ⟨hz'.2, hz'.1⟩)) h.2
      rw [nameless_rename hk.2] at this
      · exact this
      · by_cases e : x = y
        · exact .inl e
        · exact .inr (fun hx => (hf x (.inl rfl)).2 ⟨Ne.symm e, hx⟩)
    · simp [nameless, NL.holes] at hh
  | lam x a b i1 i2 =>
    intro t Γ hs hn hh hk hf h
    simp only [Everywhere] at hs hn
    simp only [binders, List.mem_cons, List.mem_append] at hf
    cases t <;> simp [typesEqual] at h
    · rename_i y c d
      simp only [nameless, NL.holes, Bool.or_eq_false_iff] at hh
      simp only [Blocks] at hk
      simp only [occursFree, Bool.or_eq_true, not_or, Bool.and_eq_true, bne_iff_ne] at hf
      simp only [nameless, Alpha]
      have hd : NL.holes (nameless [] d) = false := by rw [holes_any d [] [y]]; exact hh.2
      refine ⟨i1 c Γ hs.2.1 hn.2.1 hh.1 hk.1 (fun x hx => (hf x (.inr (.inl hx))).1) h.1, ?_⟩
      have := i2 _ (x :: Γ) hs.2.2 hn.2.2 (holes_rename hk.2 hd)
        (blocks_substitute hk.2 y (by simp [Blocks]))
        (under_binder hk.2 hn.1 (fun z hz hz' => (hf z (.inr (.inr hz))).2 ⟨hz'.2, hz'.1⟩)) h.2
      rw [nameless_rename hk.2] at this
      · exact this
      · by_cases e : x = y
        · exact .inl e
        · exact .inr (fun hx => (hf x (.inl rfl)).2 ⟨Ne.symm e, hx⟩)
    · simp [nameless, NL.holes] at hh
  | fix x b i2 =>
    intro t Γ hs hn hh hk hf h
    simp only [Everywhere] at hs hn
    simp only [binders, List.mem_cons] at hf
    cases t <;> simp [typesEqual] at h
    · rename_i y d
      simp only [nameless, NL.holes] at hh
      simp only [Blocks] at hk
      simp only [occursFree, Bool.and_eq_true, bne_iff_ne] at hf
      simp only [nameless, Alpha]
      have hd : NL.holes (nameless [] d) = false := by rw [holes_any d [] [y]]; exact hh
      have := i2 _ (x :: Γ) hs.2 hn.2 (holes_rename hk hd)
        (blocks_substitute hk y (by simp [Blocks]))
        (under_binder hk hn.1 (fun z hz hz' => hf z (.inr hz) ⟨hz'.2, hz'.1⟩)) h
      rw [nameless_rename hk] at this
      · exact this
      · by_cases e : x = y
        · exact .inl e
        · exact .inr (fun hx => hf x (.inl rfl) ⟨Ne.symm e, hx⟩)
    · simp [nameless, NL.holes] at hh
  | mfix ds i ih =>
    intro b Γ hs hn hh hk hf h
    cases b <;> simp [typesEqual] at h
    simp [nameless, NL.holes] at hh
  | letE x t w c i1 i2 i3 =>
    intro b Γ hs hn hh hk hf h
    cases b <;> simp [typesEqual] at h
    simp [nameless, NL.holes] at hh
  | mtch e m cs i1 i2 i3 =>
    intro b Γ hs hn hh hk hf h
    simp only [Everywhere] at hs hn
    simp only [binders, List.mem_append] at hf
    cases b <;> simp [typesEqual] at h
    · rename_i e' m' ks
      simp only [nameless, NL.holes, Bool.or_eq_false_iff] at hh
      simp only [Blocks] at hk
      simp only [occursFree, Bool.or_eq_true, not_or] at hf
      simp only [nameless, Alpha]
      refine ⟨i1 e' Γ hs.2.1 hn.2.1 hh.1 hk.1 (fun x hx => (hf x (.inl hx)).1.1) h.1,
        i2 m' Γ hs.2.2.1 hn.2.2.1 hh.2.1 hk.2.1 (fun x hx => (hf x (.inr (.inl hx))).1.2) h.2.1, ?_⟩
      have hf' : ∀ x ∈ bindersL cs, ¬ occursFreeL x ks = true := fun x hx => (hf x (.inr (.inr hx))).2
      have hl := h.2.2
      have hcs := hs.2.2.2
      have hns := hn.2.2.2
      have hhs := hh.2.2
      have hks := hk.2.2
      clear hs hn hh hk hf h i1 i2
      induction cs generalizing ks with
      | nil => cases ks <;> simp_all [typesEqualL, AlphaL, namelessL]
      | cons c cs ihc =>
        cases ks with
        | nil => simp [typesEqualL] at hl
        | cons k ks =>
          simp only [typesEqualL, Bool.and_eq_true] at hl
          simp only [EverywhereL] at hcs hns
          simp only [namelessL, NL.holesL, Bool.or_eq_false_iff] at hhs
          simp only [BlocksL] at hks
          simp only [bindersL, List.mem_append, occursFreeL, Bool.or_eq_true, not_or] at hf'
          simp only [namelessL, AlphaL]
          exact ⟨i3 c (by simp) k Γ hcs.1 hns.1 hhs.1 hks.1 (fun x hx => (hf' x (.inl hx)).1) hl.1,
            ihc (fun c' hc' => i3 c' (List.mem_cons_of_mem _ hc')) ks (fun x hx => (hf' x (.inr hx)).2) hl.2
              hcs.2 hns.2 hhs.2 hks.2⟩
    · simp [nameless, NL.holes] at hh

/-! ### Completeness -/

mutual
/-- A bound variable replaced by a free one. -/
def NL.inst (x : String) (k : Nat) : NL → NL
  | .bvar i => if i = k then .fvar x else .bvar i
  | .fvar y => .fvar y
  | .sort w => .sort w
  | .lit l => .lit l
  | .hole => .hole
  | .glob n => .glob n
  | .const n ls => .const n ls
  | .app f a => .app (NL.inst x k f) (NL.inst x k a)
  | .pi a b => .pi (NL.inst x k a) (NL.inst x (k + 1) b)
  | .lam a b => .lam (NL.inst x k a) (NL.inst x (k + 1) b)
  | .fix b => .fix (NL.inst x (k + 1) b)
  | .mfix ds i => .mfix (NL.instL x (k + ds.length) ds) i
  | .letE t w b => .letE (NL.inst x k t) (NL.inst x k w) (NL.inst x (k + 1) b)
  | .mtch d m cs => .mtch (NL.inst x k d) (NL.inst x k m) (NL.instL x k cs)
/-- The same for lists. -/
def NL.instL (x : String) (k : Nat) : List NL → List NL
  | [] => []
  | c :: cs => NL.inst x k c :: NL.instL x k cs
end

theorem instL_eq (x : String) (k : Nat) (cs : List NL) : NL.instL x k cs = cs.map (NL.inst x k) := by
  induction cs with
  | nil => rfl
  | cons c cs ih => simp [NL.instL, ih]

theorem alphaL_iff {cs ks : List NL} : AlphaL cs ks ↔ List.Forall₂ Alpha cs ks := by
  induction cs generalizing ks with
  | nil => cases ks <;> simp [AlphaL]
  | cons c cs ih => cases ks <;> simp [AlphaL, ih]

theorem alpha_inst (x : String) (s : NL) : ∀ (t : NL) (k : Nat), Alpha s t →
    Alpha (NL.inst x k s) (NL.inst x k t) := by
  have key : ∀ (cs ks : List NL) (k : Nat),
      (∀ c ∈ cs, ∀ (t : NL) (k : Nat), Alpha c t → Alpha (NL.inst x k c) (NL.inst x k t)) →
      AlphaL cs ks → AlphaL (NL.instL x k cs) (NL.instL x k ks) := by
    intro cs
    induction cs with
    | nil => intro ks k _ h; cases ks <;> simp_all [AlphaL, NL.instL]
    | cons c cs ih =>
      intro ks k hc h
      cases ks with
      | nil => simp [AlphaL] at h
      | cons d ks =>
        simp only [AlphaL] at h
        simp only [NL.instL, AlphaL]
        exact ⟨hc c (by simp) d k h.1, ih ks k (fun c' h' => hc c' (List.mem_cons_of_mem _ h')) h.2⟩
  have keyLen : ∀ (cs ks : List NL), AlphaL cs ks → cs.length = ks.length := by
    intro cs ks h
    exact (alphaL_iff.1 h).length_eq
  induction s using NL.ind with
  | sort u => intro t k h; cases t <;> simp_all [Alpha, NL.inst]
  | bvar i =>
    intro t k h
    simp only [Alpha] at h
    subst h
    simp only [NL.inst]
    split <;> simp [Alpha]
  | fvar y => intro t k h; simp only [Alpha] at h; subst h; simp [Alpha, NL.inst]
  | glob y => intro t k h; simp only [Alpha] at h; subst h; simp [Alpha, NL.inst]
  | const y ls => intro t k h; simp only [Alpha] at h; subst h; simp [Alpha, NL.inst]
  | lit y => intro t k h; simp only [Alpha] at h; subst h; simp [Alpha, NL.inst]
  | hole => intro t k h; simp only [Alpha] at h; subst h; simp [Alpha, NL.inst]
  | pi a b i1 i2 =>
    intro t k h; cases t <;> simp [Alpha] at h
    simp only [NL.inst, Alpha]; exact ⟨i1 _ _ h.1, i2 _ _ h.2⟩
  | lam a b i1 i2 =>
    intro t k h; cases t <;> simp [Alpha] at h
    simp only [NL.inst, Alpha]; exact ⟨i1 _ _ h.1, i2 _ _ h.2⟩
  | app a b i1 i2 =>
    intro t k h; cases t <;> simp [Alpha] at h
    simp only [NL.inst, Alpha]; exact ⟨i1 _ _ h.1, i2 _ _ h.2⟩
  | fix b i2 =>
    intro t k h; cases t <;> simp [Alpha] at h
    simp only [NL.inst, Alpha]; exact i2 _ _ h
  | letE a b c i1 i2 i3 =>
    intro t k h; cases t <;> simp [Alpha] at h
    simp only [NL.inst, Alpha]; exact ⟨i1 _ _ h.1, i2 _ _ h.2.1, i3 _ _ h.2.2⟩
  | mfix ds i ih =>
    intro t k h; cases t <;> simp [Alpha] at h
    rename_i es j
    simp only [NL.inst, Alpha]
    refine ⟨?_, h.2⟩
    rw [keyLen _ _ h.1]
    exact key ds es _ ih h.1
  | mtch d m cs i1 i2 i3 =>
    intro t k h; cases t <;> simp [Alpha] at h
    simp only [NL.inst, Alpha]; exact ⟨i1 _ _ h.1, i2 _ _ h.2.1, key _ _ _ i3 h.2.2⟩

theorem bind_inst {ρ ρ' : Env} {x : String} {d : Nat} (hd : 1 ≤ d)
    (h : ∀ y d', d ≤ d' → NL.inst x (d' - 1) (ρ y d') = ρ' y (d' - 1)) (z : String) :
    ∀ y d', d + 1 ≤ d' → NL.inst x (d' - 1) (bind ρ z d y d') = bind ρ' z (d - 1) y (d' - 1) := by
  intro y d' hd'
  by_cases e : y = z
  · simp only [bind, e, if_true, NL.inst]
    rw [if_neg (by omega)]
    congr 1
    omega
  · simp only [bind, e, if_false]
    exact h y d' (by omega)

theorem bindAll_inst (ns : List String) {ρ ρ' : Env} {x : String} {d : Nat} (hd : 1 ≤ d)
    (h : ∀ y d', d ≤ d' → NL.inst x (d' - 1) (ρ y d') = ρ' y (d' - 1)) :
    ∀ y d', d + ns.length ≤ d' → NL.inst x (d' - 1) (bindAll ρ d ns y d') = bindAll ρ' (d - 1) ns y (d' - 1) := by
  induction ns generalizing ρ ρ' d with
  | nil => exact fun y d' hd' => h y d' (by simpa using hd')
  | cons z zs ih =>
    intro y d' hd'
    simp only [List.length_cons] at hd'
    have := ih (d := d + 1) (by omega) (bind_inst hd h z) y d' (by omega)
    rw [bindAll, this, bindAll]
    congr 1
    omega

theorem sem_inst (t : Term) : ∀ {ρ ρ' : Env} {x : String} {d : Nat}, 1 ≤ d →
    (∀ y d', d ≤ d' → NL.inst x (d' - 1) (ρ y d') = ρ' y (d' - 1)) →
    NL.inst x (d - 1) (sem ρ d t) = sem ρ' (d - 1) t := by
  induction t using Term.ind with
  | var y => intro ρ ρ' x d hd h; exact h y d (Nat.le_refl d)
  | sort u => intros; simp [sem, NL.inst]
  | lit u => intros; simp [sem, NL.inst]
  | hole => intros; simp [sem, NL.inst]
  | glob u => intros; simp [sem, NL.inst]
  | const u ls => intros; simp [sem, NL.inst]
  | app f a i1 i2 => intro ρ ρ' x d hd h; simp only [sem, NL.inst, i1 hd h, i2 hd h]
  | pi z a b i1 i2 =>
    intro ρ ρ' x d hd h
    have := i2 (d := d + 1) (by omega) (bind_inst hd h z)
    have e : d - 1 + 1 = d := by omega
    simp only [sem, NL.inst, i1 hd h, e]
    simp only [Nat.add_sub_cancel] at this
    rw [this]
  | lam z a b i1 i2 =>
    intro ρ ρ' x d hd h
    have := i2 (d := d + 1) (by omega) (bind_inst hd h z)
    have e : d - 1 + 1 = d := by omega
    simp only [sem, NL.inst, i1 hd h, e]
    simp only [Nat.add_sub_cancel] at this
    rw [this]
  | fix z b i2 =>
    intro ρ ρ' x d hd h
    have := i2 (d := d + 1) (by omega) (bind_inst hd h z)
    have e : d - 1 + 1 = d := by omega
    simp only [sem, NL.inst, e]
    simp only [Nat.add_sub_cancel] at this
    rw [this]
  | mfix ds i ih =>
    intro ρ ρ' x d hd h
    simp only [sem, NL.inst, semD_eq, instL_eq, List.length_map, List.map_map]
    congr 1
    refine List.map_congr_left (fun c hc => ?_)
    have := @ih c hc (bindAll ρ d (names ds)) (bindAll ρ' (d - 1) (names ds)) x (d + ds.length) (by omega)
      (fun y d' hd' => bindAll_inst (names ds) hd h y d' (by simpa [names] using hd'))
    have e : d - 1 + ds.length = d + ds.length - 1 := by omega
    simp only [Function.comp, e]
    exact this
  | letE z t w b i1 i2 i3 =>
    intro ρ ρ' x d hd h
    have := i3 (d := d + 1) (by omega) (bind_inst hd h z)
    have e : d - 1 + 1 = d := by omega
    simp only [sem, NL.inst, i1 hd h, i2 hd h, e]
    simp only [Nat.add_sub_cancel] at this
    rw [this]
  | mtch e m cs i1 i2 i3 =>
    intro ρ ρ' x d hd h
    simp only [sem, NL.inst, i1 hd h, i2 hd h, semL_eq, instL_eq, List.map_map]
    congr 1
    exact List.map_congr_left (fun c hc => i3 c hc hd h)

/-- Opening a body with a name. -/
theorem inst_nameless (b : Term) (x y : String) (hb : Blocks b) :
    NL.inst x 0 (nameless [y] b) = nameless [] (substitute b y (.var x)) := by
  have h := sem_inst b (ρ := env [y]) (ρ' := upd (env []) y (fun d' => sem (env []) d' (.var x))) (x := x)
    (d := 1) (Nat.le_refl 1) (by
      intro z d' hd'
      by_cases e : y = z
      · subst e
        simp [env, place, upd, sem, NL.inst]
      · simp [env, place, upd, e, Ne.symm e, NL.inst])
  rw [nameless_sem, nameless_sem (substitute b y (.var x)), sem_substitute hb]
  exact h

theorem substitute_self (b : Term) (x : String) (hb : Blocks b) :
    nameless [] (substitute b x (.var x)) = nameless [] b := by
  rw [nameless_sem, nameless_sem b, sem_substitute hb]
  congr 1
  exact upd_self (env []) x

theorem alpha_open {x y : String} {b d : Term} (hb : Blocks b) (hd : Blocks d)
    (h : Alpha (nameless [x] b) (nameless [y] d)) :
    Alpha (nameless [] b) (nameless [] (substitute d y (.var x))) := by
  have := alpha_inst x _ _ 0 h
  rwa [inst_nameless b x x hb, inst_nameless d x y hd, substitute_self b x hb] at this

/-- Terms with the same nameless form pass the test. -/
theorem typesEqual_complete (a : Term) : ∀ (b : Term), Everywhere Solid a → Everywhere Simple a →
    Blocks a → Blocks b → Alpha (nameless [] a) (nameless [] b) → typesEqual a b = true := by
  induction a using Term.ind with
  | var x => intro b hs hm hk hb h; cases b <;> simp_all [typesEqual, nameless, Alpha, place]
  | sort u => intro b hs hm hk hb h; cases b <;> simp_all [typesEqual, nameless, Alpha, place]
  | lit u =>
    intro b hs hm hk hb h
    cases b <;> simp [nameless, Alpha, place] at h
    simp only [typesEqual]
    exact (Literal.same_iff hs).2 h.symm
  | hole => intro b hs; simp [Everywhere, Solid] at hs
  | glob u => intro b hs hm hk hb h; cases b <;> simp_all [typesEqual, nameless, Alpha, place]
  | const u ls => intro b hs hm; simp [Everywhere, Simple] at hm
  | mfix ds i ih => intro b hs hm; simp [Everywhere, Simple] at hm
  | letE x t w b i1 i2 i3 => intro b hs hm; simp [Everywhere, Simple] at hm
  | app f a i1 i2 =>
    intro b hs hm hk hb h
    cases b <;> simp [nameless, Alpha, place] at h
    simp only [Everywhere] at hs hm
    simp only [Blocks] at hk hb
    simp only [typesEqual, Bool.and_eq_true]
    exact ⟨i1 _ hs.2.1 hm.2.1 hk.1 hb.1 h.1, i2 _ hs.2.2 hm.2.2 hk.2 hb.2 h.2⟩
  | pi x a c i1 i2 =>
    intro b hs hm hk hb h
    cases b <;> simp [nameless, Alpha, place] at h
    simp only [Everywhere] at hs hm
    simp only [Blocks] at hk hb
    simp only [typesEqual, Bool.and_eq_true]
    exact ⟨i1 _ hs.2.1 hm.2.1 hk.1 hb.1 h.1, i2 _ hs.2.2 hm.2.2 hk.2
      (blocks_substitute hb.2 _ (by simp [Blocks])) (alpha_open hk.2 hb.2 h.2)⟩
  | lam x a c i1 i2 =>
    intro b hs hm hk hb h
    cases b <;> simp [nameless, Alpha, place] at h
    simp only [Everywhere] at hs hm
    simp only [Blocks] at hk hb
    simp only [typesEqual, Bool.and_eq_true]
    exact ⟨i1 _ hs.2.1 hm.2.1 hk.1 hb.1 h.1, i2 _ hs.2.2 hm.2.2 hk.2
      (blocks_substitute hb.2 _ (by simp [Blocks])) (alpha_open hk.2 hb.2 h.2)⟩
  | fix x c i2 =>
    intro b hs hm hk hb h
    cases b <;> simp [nameless, Alpha, place] at h
    simp only [Everywhere] at hs hm
    simp only [Blocks] at hk hb
    simp only [typesEqual]
    exact i2 _ hs.2 hm.2 hk (blocks_substitute hb _ (by simp [Blocks])) (alpha_open hk hb h)
  | mtch e m cs i1 i2 i3 =>
    intro b hs hm hk hb h
    cases b <;> simp [nameless, Alpha, place] at h
    rename_i e' m' ks
    simp only [Everywhere] at hs hm
    simp only [Blocks] at hk hb
    simp only [typesEqual, Bool.and_eq_true]
    refine ⟨i1 _ hs.2.1 hm.2.1 hk.1 hb.1 h.1, i2 _ hs.2.2.1 hm.2.2.1 hk.2.1 hb.2.1 h.2.1, ?_⟩
    have h1 := hs.2.2.2
    have h2 := hm.2.2.2
    have h3 := hk.2.2
    have h4 := hb.2.2
    have h5 := h.2.2
    clear hs hm hk hb h i1 i2
    induction cs generalizing ks with
    | nil => cases ks <;> simp_all [typesEqualL, AlphaL, namelessL]
    | cons c cs ihc =>
      cases ks with
      | nil => simp [namelessL, AlphaL] at h5
      | cons k ks =>
        simp only [EverywhereL] at h1 h2
        simp only [BlocksL] at h3 h4
        simp only [namelessL, AlphaL] at h5
        simp only [typesEqualL, Bool.and_eq_true]
        exact ⟨i3 c (by simp) k h1.1 h2.1 h3.1 h4.1 h5.1,
          ihc (fun c' hc' => i3 c' (List.mem_cons_of_mem _ hc')) ks h1.2 h2.2 h3.2 h4.2 h5.2⟩

end Verif.Core
