import Verif.Kernel.Syntax
/-! # Reading terms: lemmas -/
namespace Verif.Kernel

/-- `reify` as a relation. -/
inductive Reads {α : Type} (o : Algebra α) : Term → Interner → α → Interner → Prop
  | lit (n : Int) (v) : Reads o (sLit n) v (o.lit n) v
  | var (i : Int) (v) : Reads o (sVar i) v (o.var i) v
  | name (s : String) (v) : Reads o (sName s) v (o.var (v.intern s).1) (v.intern s).2
  | add {a b v v1 v2 x y} : Reads o a v x v1 → Reads o b v1 y v2 →
      Reads o (sBin "add" a b) v (o.add x y) v2
  | sub {a b v v1 v2 x y} : Reads o a v x v1 → Reads o b v1 y v2 →
      Reads o (sBin "sub" a b) v (o.sub x y) v2
  | mul {a b v v1 v2 x y z} : Reads o a v x v1 → Reads o b v1 y v2 → o.mul x y = some z →
      Reads o (sBin "mul" a b) v z v2

theorem extractSlit_some {t : Term} {n : Int} (h : extractSlit t = some n) : t = sLit n := by
  unfold extractSlit at h
  split at h
  · split at h
    · rename_i e; subst e; cases h; rfl
    · cases h
  · cases h

theorem extractSvar_some {t : Term} {n : Int} (h : extractSvar t = some n) : t = sVar n := by
  unfold extractSvar at h
  split at h
  · split at h
    · rename_i e; subst e; cases h; rfl
    · cases h
  · cases h

theorem extractSname_some {t : Term} {s : String} (h : extractSname t = some s) : t = sName s := by
  unfold extractSname at h
  split at h
  · split at h
    · rename_i e; subst e; cases h; rfl
    · cases h
  · cases h

@[simp] theorem extractSname_sName (s : String) : extractSname (sName s) = some s := rfl

theorem extractBinaryApp_some {t a b : Term} {s : String}
    (h : extractBinaryApp t = some (s, a, b)) : t = sBin s a b := by
  unfold extractBinaryApp at h
  split at h
  · split at h
    · rename_i e
      obtain ⟨rfl, rfl⟩ := e
      rw [Option.map_eq_some_iff] at h
      obtain ⟨s', h1, h2⟩ := h
      cases h2
      rw [extractSname_some h1]; rfl
    · cases h
  · cases h

@[simp] theorem extractBinaryApp_sBin (s : String) (a b : Term) :
    extractBinaryApp (sBin s a b) = some (s, a, b) := by
  simp [extractBinaryApp, sBin, sApp]

theorem relOf_some {s : String} {r : Rel} : relOf s = some r ↔ RelName s r := by
  constructor
  · unfold relOf
    repeat' split
    all_goals
      intro h
      first
        | (cases h; rename_i hs; rcases hs with rfl | rfl <;> constructor)
        | cases h
  · rintro (_ | _) <;> decide

theorem extractComparison_some {t a b : Term} {r : Rel}
    (h : extractComparison t = some (r, a, b)) : ∃ s, relOf s = some r ∧ t = sBin s a b := by
  unfold extractComparison at h
  split at h
  · cases h
  · rename_i s a' b' e
    rw [Option.map_eq_some_iff] at h
    obtain ⟨r', h1, h2⟩ := h
    cases h2
    exact ⟨s, h1, extractBinaryApp_some e⟩

theorem extractComparison_sBin {s : String} {r : Rel} (h : relOf s = some r) (a b : Term) :
    extractComparison (sBin s a b) = some (r, a, b) := by
  simp [extractComparison, h]

theorem extractEq_some {t ty a b : Term} (h : extractEq t = some (ty, a, b)) :
    t = sApp (sApp (sApp (sName "Eq") ty) a) b := by
  unfold extractEq at h
  split at h
  · split at h
    · rename_i e
      obtain ⟨rfl, rfl, rfl, e⟩ := e
      cases h
      rw [extractSname_some e]; rfl
    · cases h
  · cases h

@[simp] theorem extractEq_eq (ty a b : Term) :
    extractEq (sApp (sApp (sApp (sName "Eq") ty) a) b) = some (ty, a, b) := by
  simp [extractEq, sApp]

theorem reify_of_reads {α : Type} {o : Algebra α} {t : Term} {v v' : Interner} {p : α}
    (h : Reads o t v p v') : reify o t v = (some p, v') := by
  induction h with
  | lit n v => rfl
  | var i v => rfl
  | name s v => rfl
  | add h1 h2 ih1 ih2 => simp [reify, sBin, sApp, ih1, ih2, bothThen]
  | sub h1 h2 ih1 ih2 => simp [reify, sBin, sApp, ih1, ih2, bothThen]
  | mul h1 h2 e ih1 ih2 => simp [reify, sBin, sApp, ih1, ih2, bothThen, e]

theorem bothThen_some {α : Type} {f : α → α → Option α} {x : α} {r : Option α × Interner} {p : α}
    {v : Interner} (h : bothThen f x r = (some p, v)) : ∃ y, r = (some y, v) ∧ f x y = some p := by
  obtain ⟨o, w⟩ := r
  cases o with
  | none => simp [bothThen] at h
  | some y =>
    simp only [bothThen, Prod.mk.injEq] at h
    exact ⟨y, by rw [h.2], h.1⟩

theorem reads_of_reify {α : Type} {o : Algebra α} (t : Term) : ∀ {v v' : Interner} {p : α},
    reify o t v = (some p, v') → Reads o t v p v' := by
  induction h : sizeOf t using Nat.strong_induction_on generalizing t with
  | _ n ih =>
    intro v v' p hr
    unfold reify at hr
    split at hr
    · rename_i c x v
      split at hr
      · rename_i n e
        cases hr
        rw [extractSlit_some e]; exact .lit n _
      · split at hr
        · rename_i i e
          cases hr
          rw [extractSvar_some e]; exact .var i _
        · split at hr
          · rename_i s e
            cases hr
            rw [extractSname_some e]; exact .name s _
          · cases hr
    · rename_i c c2 op a b
      split at hr
      · rename_i e
        obtain ⟨rfl, rfl⟩ := e
        split at hr
        · cases hr
        · rename_i s e
          have hop := extractSname_some e
          subst hop
          have ha : sizeOf a < n := by rw [← h]; simp; omega
          have hb : sizeOf b < n := by rw [← h]; simp; omega
          split at hr
          · rename_i es; subst es
            split at hr
            · cases hr
            · rename_i x w ea
              obtain ⟨y, ey, e⟩ := bothThen_some hr
              cases e
              exact Reads.add (ih _ ha a rfl ea) (ih _ hb b rfl ey)
          · split at hr
            · rename_i es; subst es
              split at hr
              · cases hr
              · rename_i x w ea
                obtain ⟨y, ey, e⟩ := bothThen_some hr
                cases e
                exact Reads.sub (ih _ ha a rfl ea) (ih _ hb b rfl ey)
            · split at hr
              · rename_i es; subst es
                split at hr
                · cases hr
                · rename_i x w ea
                  obtain ⟨y, ey, e⟩ := bothThen_some hr
                  exact Reads.mul (ih _ ha a rfl ea) (ih _ hb b rfl ey) e
              · cases hr
      · cases hr
    · cases hr

/-! ## The interner -/

/-- What `intern` maintains. -/
structure Interner.Ok (v : Interner) : Prop where
  range : ∀ e ∈ v.map, v.next < e.2 ∧ e.2 ≤ -1000000
  next : v.next ≤ -1000000
  find : ∀ e ∈ v.map, v.find e.1 = some e.2
  inj : ∀ e ∈ v.map, ∀ e' ∈ v.map, e.2 = e'.2 → e.1 = e'.1

theorem Interner.new_ok : Interner.new.Ok :=
  ⟨by simp [Interner.new], by simp [Interner.new], by simp [Interner.new], by simp [Interner.new]⟩

theorem Interner.mem_of_find {v : Interner} {s : String} {i : Int} (h : v.find s = some i) :
    (s, i) ∈ v.map := by
  unfold Interner.find at h
  rw [Option.map_eq_some_iff] at h
  obtain ⟨e, h1, h2⟩ := h
  have h3 := List.mem_of_find?_eq_some h1
  have h4 := List.find?_some h1
  obtain ⟨a, b⟩ := e
  simp at h4 h2
  subst h4 h2; exact h3

theorem Interner.intern_ok {v : Interner} (h : v.Ok) (s : String) :
    (v.intern s).2.Ok ∧ (∀ e ∈ v.map, e ∈ (v.intern s).2.map) ∧
      (s, (v.intern s).1) ∈ (v.intern s).2.map := by
  unfold Interner.intern
  cases hf : v.find s with
  | some i => exact ⟨h, fun e he => he, Interner.mem_of_find hf⟩
  | none =>
    refine ⟨⟨?_, ?_, ?_, ?_⟩, fun e he => List.mem_cons_of_mem _ he, List.mem_cons_self ..⟩
    · intro e he
      have hn := h.next
      rcases List.mem_cons.1 he with rfl | he
      · simp only; omega
      · have := h.range e he
        simp only; omega
    · have hn := h.next
      simp only; omega
    · intro e he
      rcases List.mem_cons.1 he with rfl | he
      · simp [Interner.find]
      · have h1 := h.find e he
        have hne : s ≠ e.1 := by
          intro e'; rw [← e'] at h1; rw [hf] at h1; cases h1
        simp only [Interner.find, List.find?_cons, hne, decide_false]
        exact h1
    · intro e he e' he' heq
      rcases List.mem_cons.1 he with rfl | he
      · rcases List.mem_cons.1 he' with rfl | he'
        · rfl
        · have := (h.range e' he').1
          simp only at heq; omega
      · rcases List.mem_cons.1 he' with rfl | he'
        · have := (h.range e he).1
          simp only at heq; omega
        · exact h.inj e he e' he' heq

theorem Reads.ok {α : Type} {o : Algebra α} {t : Term} {v v' : Interner} {p : α}
    (h : Reads o t v p v') (hv : v.Ok) : v'.Ok ∧ ∀ e ∈ v.map, e ∈ v'.map := by
  induction h with
  | lit => exact ⟨hv, fun _ h => h⟩
  | var => exact ⟨hv, fun _ h => h⟩
  | name s v => exact ⟨(Interner.intern_ok hv s).1, (Interner.intern_ok hv s).2.1⟩
  | add h1 h2 ih1 ih2 =>
    have a := ih1 hv
    have b := ih2 a.1
    exact ⟨b.1, fun e he => b.2 e (a.2 e he)⟩
  | sub h1 h2 ih1 ih2 =>
    have a := ih1 hv
    have b := ih2 a.1
    exact ⟨b.1, fun e he => b.2 e (a.2 e he)⟩
  | mul h1 h2 _ ih1 ih2 =>
    have a := ih1 hv
    have b := ih2 a.1
    exact ⟨b.1, fun e he => b.2 e (a.2 e he)⟩

/-- `τ` gives the indices the values that `ρ` and `σ` give the variables. -/
def Agrees {R : Type} (τ : Int → R) (ρ : Int → R) (σ : String → R) (v : Interner) : Prop :=
  (∀ i, 0 ≤ i → τ i = ρ i) ∧ ∀ e ∈ v.map, τ e.2 = σ e.1

theorem Agrees.mono {R : Type} {τ ρ : Int → R} {σ : String → R} {v v' : Interner}
    (h : Agrees τ ρ σ v') (hs : ∀ e ∈ v.map, e ∈ v'.map) : Agrees τ ρ σ v :=
  ⟨h.1, fun e he => h.2 e (hs e he)⟩

/-- For every value of the variables there is an assignment to the indices. -/
theorem exists_index {R : Type} [Inhabited R] (ρ : Int → R) (σ : String → R) {v : Interner}
    (hv : v.Ok) : ∃ τ, Agrees τ ρ σ v := by
  refine ⟨fun i => if 0 ≤ i then ρ i else
    ((v.map.find? (fun e => decide (e.2 = i))).map (fun e => σ e.1)).getD default, ?_, ?_⟩
  · intro i hi; simp [hi]
  · intro e he
    have := (hv.range e he).2
    have hneg : ¬ (0 ≤ e.2) := by omega
    simp only [hneg, if_false]
    cases hf : v.map.find? (fun e' => decide (e'.2 = e.2)) with
    | none =>
      have := List.find?_eq_none.1 hf e he
      simp at this
    | some e' =>
      have h1 := List.mem_of_find?_eq_some hf
      have h2 := List.find?_some hf
      simp at h2
      simp only [Option.map_some, Option.getD_some]
      rw [hv.inj e' h1 e he h2]

/-- For every assignment to the indices there are values of the variables. -/
theorem exists_values {R : Type} [Inhabited R] (τ : Int → R) {v : Interner}
    (hv : v.Ok) : ∃ ρ σ, Agrees τ ρ σ v := by
  refine ⟨τ, fun s => ((v.find s).map τ).getD default, fun i _ => rfl, ?_⟩
  intro e he
  simp [hv.find e he]

/-- An algebra that computes in a ring. -/
structure Interp {α R : Type} [Ring R] (o : Algebra α) (good : α → Prop) (ev : (Int → R) → α → R) :
    Prop where
  lit : ∀ n τ, good (o.lit n) ∧ ev τ (o.lit n) = (n : R)
  var : ∀ i τ, good (o.var i) ∧ ev τ (o.var i) = τ i
  add : ∀ x y τ, good x → good y → good (o.add x y) ∧ ev τ (o.add x y) = ev τ x + ev τ y
  sub : ∀ x y τ, good x → good y → good (o.sub x y) ∧ ev τ (o.sub x y) = ev τ x - ev τ y
  mul : ∀ x y z τ, good x → good y → o.mul x y = some z → good z ∧ ev τ z = ev τ x * ev τ y

theorem DeBruijn.bin {op : String} {a b : Term} (h : DeBruijn (sBin op a b)) :
    DeBruijn a ∧ DeBruijn b :=
  ⟨fun i hi => h i (.left (.right (.right hi))), fun i hi => h i (.right hi)⟩

theorem Reads.good {α R : Type} [Ring R] {o : Algebra α} {good : α → Prop} {ev : (Int → R) → α → R}
    (hi : Interp o good ev) {t : Term} {v v' : Interner} {p : α} (h : Reads o t v p v') : good p := by
  induction h with
  | lit n v => exact (hi.lit n 0).1
  | var i v => exact (hi.var i 0).1
  | name s v => exact (hi.var _ 0).1
  | add _ _ ih1 ih2 => exact (hi.add _ _ 0 ih1 ih2).1
  | sub _ _ ih1 ih2 => exact (hi.sub _ _ 0 ih1 ih2).1
  | mul _ _ e ih1 ih2 => exact (hi.mul _ _ _ 0 ih1 ih2 e).1

/-- What is read has the value of the term. -/
theorem Reads.denotes {α R : Type} [Ring R] {o : Algebra α} {good : α → Prop}
    {ev : (Int → R) → α → R} (hi : Interp o good ev) {t : Term} {v v' : Interner} {p : α}
    (h : Reads o t v p v') : v.Ok → DeBruijn t → ∀ τ ρ σ, Agrees τ ρ σ v' →
    Denotes ρ σ t (ev τ p) := by
  induction h with
  | lit n v => intro _ _ τ ρ σ _; rw [(hi.lit n τ).2]; exact .lit n
  | var i v =>
    intro _ hd τ ρ σ ha
    rw [(hi.var i τ).2, ha.1 i (hd i .here)]; exact .var i
  | name s v =>
    intro hv _ τ ρ σ ha
    rw [(hi.var _ τ).2, ha.2 _ (Interner.intern_ok hv s).2.2]; exact .name s
  | add h1 h2 ih1 ih2 =>
    intro hv hd τ ρ σ ha
    have o1 := h1.ok hv
    have o2 := h2.ok o1.1
    rw [(hi.add _ _ τ (h1.good hi) (h2.good hi)).2]
    exact .add (ih1 hv hd.bin.1 τ ρ σ (ha.mono o2.2)) (ih2 o1.1 hd.bin.2 τ ρ σ ha)
  | sub h1 h2 ih1 ih2 =>
    intro hv hd τ ρ σ ha
    have o1 := h1.ok hv
    have o2 := h2.ok o1.1
    rw [(hi.sub _ _ τ (h1.good hi) (h2.good hi)).2]
    exact .sub (ih1 hv hd.bin.1 τ ρ σ (ha.mono o2.2)) (ih2 o1.1 hd.bin.2 τ ρ σ ha)
  | mul h1 h2 e ih1 ih2 =>
    intro hv hd τ ρ σ ha
    have o1 := h1.ok hv
    have o2 := h2.ok o1.1
    rw [(hi.mul _ _ _ τ (h1.good hi) (h2.good hi) e).2]
    exact .mul (ih1 hv hd.bin.1 τ ρ σ (ha.mono o2.2)) (ih2 o1.1 hd.bin.2 τ ρ σ ha)

/-! ## The value of a term is unique -/

theorem sBin_inj {s s' : String} {a b a' b' : Term} (h : sBin s a b = sBin s' a' b') :
    s = s' ∧ a = a' ∧ b = b' := by
  simp only [sBin, sApp, sName, Term.app.injEq, Term.lit.injEq, Lit.text.injEq, true_and] at h
  exact ⟨h.1.1, h.1.2, h.2⟩

theorem sLit_ne_sBin {n : Int} {s : String} {a b : Term} : sLit n ≠ sBin s a b := by
  simp [sLit, sBin, sApp]
theorem sVar_ne_sBin {n : Int} {s : String} {a b : Term} : sVar n ≠ sBin s a b := by
  simp [sVar, sBin, sApp]
theorem sName_ne_sBin {n : String} {s : String} {a b : Term} : sName n ≠ sBin s a b := by
  simp [sName, sBin, sApp]

theorem Denotes.unique {R : Type} [Ring R] {ρ : Int → R} {σ : String → R} {t : Term} {x y : R}
    (h : Denotes ρ σ t x) (h' : Denotes ρ σ t y) : x = y := by
  induction h generalizing y with
  | lit n =>
    generalize e : sLit n = t at h'
    cases h' with
    | lit m => simp [sLit] at e; rw [e]
    | var => simp [sLit, sVar] at e
    | name => simp [sLit, sName] at e
    | add => exact absurd e sLit_ne_sBin
    | sub => exact absurd e sLit_ne_sBin
    | mul => exact absurd e sLit_ne_sBin
  | var i =>
    generalize e : sVar i = t at h'
    cases h' with
    | lit m => simp [sLit, sVar] at e
    | var => simp [sVar] at e; rw [e]
    | name => simp [sVar, sName] at e
    | add => exact absurd e sVar_ne_sBin
    | sub => exact absurd e sVar_ne_sBin
    | mul => exact absurd e sVar_ne_sBin
  | name s =>
    generalize e : sName s = t at h'
    cases h' with
    | lit m => simp [sLit, sName] at e
    | var => simp [sVar, sName] at e
    | name => simp [sName] at e; rw [e]
    | add => exact absurd e sName_ne_sBin
    | sub => exact absurd e sName_ne_sBin
    | mul => exact absurd e sName_ne_sBin
  | @add a b _ _ h1 h2 ih1 ih2 =>
    generalize e : sBin "add" a b = t at h'
    cases h' with
    | lit m => exact absurd e.symm sLit_ne_sBin
    | var => exact absurd e.symm sVar_ne_sBin
    | name => exact absurd e.symm sName_ne_sBin
    | add k1 k2 =>
      obtain ⟨_, rfl, rfl⟩ := sBin_inj e
      rw [ih1 k1, ih2 k2]
    | sub => exact absurd (sBin_inj e).1 (by decide)
    | mul => exact absurd (sBin_inj e).1 (by decide)
  | @sub a b _ _ h1 h2 ih1 ih2 =>
    generalize e : sBin "sub" a b = t at h'
    cases h' with
    | lit m => exact absurd e.symm sLit_ne_sBin
    | var => exact absurd e.symm sVar_ne_sBin
    | name => exact absurd e.symm sName_ne_sBin
    | sub k1 k2 =>
      obtain ⟨_, rfl, rfl⟩ := sBin_inj e
      rw [ih1 k1, ih2 k2]
    | add => exact absurd (sBin_inj e).1 (by decide)
    | mul => exact absurd (sBin_inj e).1 (by decide)
  | @mul a b _ _ h1 h2 ih1 ih2 =>
    generalize e : sBin "mul" a b = t at h'
    cases h' with
    | lit m => exact absurd e.symm sLit_ne_sBin
    | var => exact absurd e.symm sVar_ne_sBin
    | name => exact absurd e.symm sName_ne_sBin
    | mul k1 k2 =>
      obtain ⟨_, rfl, rfl⟩ := sBin_inj e
      rw [ih1 k1, ih2 k2]
    | add => exact absurd (sBin_inj e).1 (by decide)
    | sub => exact absurd (sBin_inj e).1 (by decide)

/-- An algebra that never rejects a product reads every arithmetic term. -/
theorem reads_of_denotes {α R : Type} [Ring R] {o : Algebra α} (hm : ∀ x y, ∃ z, o.mul x y = some z)
    {ρ : Int → R} {σ : String → R} {t : Term} {x : R} (h : Denotes ρ σ t x) :
    ∀ v, ∃ p v', Reads o t v p v' := by
  induction h with
  | lit n => intro v; exact ⟨_, _, .lit n v⟩
  | var i => intro v; exact ⟨_, _, .var i v⟩
  | name s => intro v; exact ⟨_, _, .name s v⟩
  | add _ _ ih1 ih2 =>
    intro v
    obtain ⟨p, v1, h1⟩ := ih1 v
    obtain ⟨q, v2, h2⟩ := ih2 v1
    exact ⟨_, _, .add h1 h2⟩
  | sub _ _ ih1 ih2 =>
    intro v
    obtain ⟨p, v1, h1⟩ := ih1 v
    obtain ⟨q, v2, h2⟩ := ih2 v1
    exact ⟨_, _, .sub h1 h2⟩
  | mul _ _ ih1 ih2 =>
    intro v
    obtain ⟨p, v1, h1⟩ := ih1 v
    obtain ⟨q, v2, h2⟩ := ih2 v1
    obtain ⟨z, hz⟩ := hm p q
    exact ⟨_, _, .mul h1 h2 hz⟩

/-- A decidable form of `DeBruijn`, for the examples. -/
def deBruijnB : Term → Bool
  | .app (.global "SVar") (.lit (.int i)) => decide (0 ≤ i)
  | .app f x => deBruijnB f && deBruijnB x
  | _ => true

theorem occurs_app {s f x : Term} (h : Occurs s (.app f x)) :
    s = .app f x ∨ Occurs s f ∨ Occurs s x := by
  generalize e : Term.app f x = t at h
  cases h with
  | here => exact Or.inl rfl
  | left h => cases e; exact Or.inr (Or.inl h)
  | right h => cases e; exact Or.inr (Or.inr h)

theorem occurs_atom {s t : Term} (ht : ∀ f x, t ≠ .app f x) (h : Occurs s t) : s = t := by
  cases h with
  | here => rfl
  | left h => exact absurd rfl (ht _ _)
  | right h => exact absurd rfl (ht _ _)

theorem deBruijn_of_b {t : Term} (h : deBruijnB t = true) : DeBruijn t := by
  intro i hi
  induction t with
  | global s => have := occurs_atom (by simp) hi; simp [sVar] at this
  | lit l => have := occurs_atom (by simp) hi; simp [sVar] at this
  | other k => have := occurs_atom (by simp) hi; simp [sVar] at this
  | app f x ihf ihx =>
    unfold deBruijnB at h
    split at h
    · rename_i j e
      cases e
      rcases occurs_app hi with e | hi | hi
      · simp [sVar] at e; subst e; simpa using h
      · have := occurs_atom (by simp) hi; simp [sVar] at this
      · have := occurs_atom (by simp) hi; simp [sVar] at this
    · rename_i f' x' hne e
      cases e
      rw [Bool.and_eq_true] at h
      rcases occurs_app hi with e | hi | hi
      · simp only [sVar, Term.app.injEq] at e
        exact (hne _ e.1.symm e.2.symm).elim
      · exact ihf h.1 hi
      · exact ihx h.2 hi
    · rename_i e1 e2
      exact (e2 _ _ rfl).elim

/-! ## Reading that fails still leaves the interner well formed -/

theorem bothThen_snd {α : Type} (f : α → α → Option α) (x : α) (r : Option α × Interner) :
    (bothThen f x r).2 = r.2 := by
  obtain ⟨o, v⟩ := r
  cases o <;> rfl

theorem reify_ok {α : Type} (o : Algebra α) (t : Term) : ∀ {v : Interner}, v.Ok →
    (reify o t v).2.Ok ∧ ∀ e ∈ v.map, e ∈ (reify o t v).2.map := by
  induction h : sizeOf t using Nat.strong_induction_on generalizing t with
  | _ n ih =>
    intro v hv
    have stop : v.Ok ∧ ∀ e ∈ v.map, e ∈ v.map := ⟨hv, fun _ h => h⟩
    unfold reify
    split
    · rename_i c x
      split
      · exact stop
      · split
        · exact stop
        · split
          · rename_i s _
            exact ⟨(Interner.intern_ok hv s).1, (Interner.intern_ok hv s).2.1⟩
          · exact stop
    · rename_i c c2 op a b
      have ha : sizeOf a < n := by rw [← h]; simp; omega
      have hb : sizeOf b < n := by rw [← h]; simp; omega
      have both : ∀ f : α → α → Option α,
          (match reify o a v with
            | (none, v) => ((none : Option α), v)
            | (some x, v) => bothThen f x (reify o b v)).2.Ok ∧
          ∀ e ∈ v.map, e ∈ (match reify o a v with
            | (none, v) => ((none : Option α), v)
            | (some x, v) => bothThen f x (reify o b v)).2.map := by
        intro f
        have h1 := ih _ ha a rfl hv
        revert h1
        generalize reify o a v = r
        intro h1
        obtain ⟨r1, r2⟩ := r
        cases r1 with
        | none => exact h1
        | some x =>
          simp only [bothThen_snd]
          have h2 := ih _ hb b rfl h1.1
          exact ⟨h2.1, fun e he => h2.2 e (h1.2 e he)⟩
      split
      · split
        · exact stop
        · split
          · exact both _
          · split
            · exact both _
            · split
              · exact both _
              · exact stop
      · exact stop
    · exact stop

end Verif.Kernel
