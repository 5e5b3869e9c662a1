import Verif.Kernel.OmegaLemmas
/-! # Goals and hypotheses of `omega` -/
namespace Verif.Kernel

theorem readBoth_ok (a b : Term) {v : Interner} (hv : v.Ok) :
    (readBoth a b v).2.Ok ∧ ∀ e ∈ v.map, e ∈ (readBoth a b v).2.map := by
  have h1 := reify_ok (linearAlgebra Int) a hv
  have h2 := reify_ok (linearAlgebra Int) b h1.1
  have e : (readBoth a b v).2 =
      (reify (linearAlgebra Int) b (reify (linearAlgebra Int) a v).2).2 := by
    unfold readBoth
    generalize reify (linearAlgebra Int) a v = r
    obtain ⟨x, v1⟩ := r
    simp only
    generalize reify (linearAlgebra Int) b v1 = q
    obtain ⟨y, v2⟩ := q
    cases x <;> cases y <;> rfl
  rw [e]
  exact ⟨h2.1, fun e he => h2.2 e (h1.2 e he)⟩

theorem readBoth_some {a b : Term} {v v' : Interner} {x y : LExpr Int}
    (h : readBoth a b v = (some (x, y), v')) : ∃ v1,
      Reads (linearAlgebra Int) a v x v1 ∧ Reads (linearAlgebra Int) b v1 y v' := by
  unfold readBoth at h
  generalize ha : reify (linearAlgebra Int) a v = r at h
  obtain ⟨x', v1⟩ := r
  simp only at h
  generalize hb : reify (linearAlgebra Int) b v1 = q at h
  obtain ⟨y', v2⟩ := q
  cases x' with
  | none => simp at h
  | some x' =>
    cases y' with
    | none => simp at h
    | some y' =>
      simp only [Prod.mk.injEq, Option.some.injEq] at h
      obtain ⟨⟨rfl, rfl⟩, rfl⟩ := h
      exact ⟨v1, reads_of_reify a ha, reads_of_reify b hb⟩

theorem readBoth_reads {a b : Term} {v v1 v' : Interner} {x y : LExpr Int}
    (ha : Reads (linearAlgebra Int) a v x v1) (hb : Reads (linearAlgebra Int) b v1 y v') :
    readBoth a b v = (some (x, y), v') := by
  unfold readBoth
  rw [reify_of_reads ha]
  simp only [reify_of_reads hb]

/-- Every comparison in the list that can be read is true. -/
def AllTrue (ρ : Int → ℤ) (σ : String → ℤ) (hs : List Term) : Prop :=
  ∀ h ∈ hs, ∀ s r a b x y, h = sBin s a b → relOf s = some r → Denotes ρ σ a x → Denotes ρ σ b y →
    r.Holds x y

theorem omegaFacts_spec (hs : List Term) : ∀ {v : Interner}, v.Ok → (∀ h ∈ hs, DeBruijn h) →
    (omegaFacts hs v).2.Ok ∧ (∀ e ∈ v.map, e ∈ (omegaFacts hs v).2.map) ∧
      (∀ c ∈ (omegaFacts hs v).1, c.expr.Clean ∧ c.strict = false) ∧
      ∀ τ ρ σ, Agrees τ ρ σ (omegaFacts hs v).2 → AllTrue ρ σ hs →
        ∀ c ∈ (omegaFacts hs v).1, c.Holds (RingHom.id ℤ) τ := by
  induction hs with
  | nil => intro v hv _; exact ⟨hv, fun _ h => h, by simp [omegaFacts], by simp [omegaFacts]⟩
  | cons h hs ih =>
    intro v hv hd
    have hds : ∀ h ∈ hs, DeBruijn h := fun x hx => hd x (List.mem_cons_of_mem _ hx)
    have htail : ∀ {ρ σ}, AllTrue ρ σ (h :: hs) → AllTrue ρ σ hs :=
      fun ht x hx => ht x (List.mem_cons_of_mem _ hx)
    unfold omegaFacts
    cases hc : extractComparison h with
    | none =>
      have := ih hv hds
      exact ⟨this.1, this.2.1, this.2.2.1, fun τ ρ σ ha ht => this.2.2.2 τ ρ σ ha (htail ht)⟩
    | some q =>
      obtain ⟨r, a, b⟩ := q
      obtain ⟨s, hs', rfl⟩ := extractComparison_some hc
      simp only
      have hok := readBoth_ok a b hv
      cases hr : readBoth a b v with
      | mk o w =>
        rw [hr] at hok
        have htl := ih hok.1 hds
        cases o with
        | none =>
          simp only
          exact ⟨htl.1, fun e he => htl.2.1 e (hok.2 e he), htl.2.2.1,
            fun τ ρ σ ha ht => htl.2.2.2 τ ρ σ ha (htail ht)⟩
        | some p =>
          obtain ⟨x, y⟩ := p
          simp only
          obtain ⟨v1, ha, hb⟩ := readBoth_some hr
          have hx := ha.good (linear_interp (RingHom.id ℤ))
          have hy := hb.good (linear_interp (RingHom.id ℤ))
          refine ⟨htl.1, fun e he => htl.2.1 e (hok.2 e he), ?_, ?_⟩
          · intro c hc
            rcases List.mem_cons.1 hc with rfl | hc
            · exact omegaFact_clean hx hy r
            · exact htl.2.2.1 c hc
          · intro τ ρ σ hag ht c hc
            rcases List.mem_cons.1 hc with rfl | hc
            · rw [omegaFact_int hx hy]
              have hdb := (hd _ (List.mem_cons_self ..)).bin
              have o1 := ha.ok hv
              have o2 := hb.ok o1.1
              have hw := hag.mono htl.2.1
              exact ht _ (List.mem_cons_self ..) s r a b _ _ rfl hs'
                (ha.denotes (linear_interp (RingHom.id ℤ)) hv hdb.1 τ ρ σ (hw.mono o2.2))
                (hb.denotes (linear_interp (RingHom.id ℤ)) o1.1 hdb.2 τ ρ σ hw)
            · exact htl.2.2.2 τ ρ σ hag (htail ht) c hc

theorem extractImplications_spec (t : Term) {R : Type} [Ring R] [LT R] [LE R] {ρ : Int → R}
    {σ : String → R} {T : Term → Prop} (hT : Meaning ρ σ T) :
    (T t ↔ ((∀ h ∈ (extractImplications t).1, T h) → T (extractImplications t).2)) ∧
      (DeBruijn t → (∀ h ∈ (extractImplications t).1, DeBruijn h) ∧
        DeBruijn (extractImplications t).2) := by
  induction h : sizeOf t using Nat.strong_induction_on generalizing t with
  | _ n ih =>
    unfold extractImplications
    split
    · rename_i c c2 name a b
      split
      · rename_i hi
        obtain ⟨rfl, rfl, hi⟩ := hi
        have hb : sizeOf b < n := by rw [← h]; simp
        have ihb := ih _ hb b rfl
        obtain ⟨s, hs, rfl⟩ : ∃ s, (s = "Implies" ∨ s = "implies") ∧ name = sName s := by
          rcases hi with hi | hi
          · exact ⟨_, Or.inl rfl, extractSname_some hi⟩
          · exact ⟨_, Or.inr rfl, extractSname_some hi⟩
        have e : Term.app (Term.app (.global "SApp") (Term.app (Term.app (.global "SApp") (sName s)) a)) b
            = sBin s a b := rfl
        rw [e]
        refine ⟨?_, ?_⟩
        · rw [hT.implication s a b hs, ihb.1]
          simp only [List.mem_cons, forall_eq_or_imp]
          tauto
        · intro hd
          have := ihb.2 hd.bin.2
          refine ⟨?_, this.2⟩
          intro x hx
          rcases List.mem_cons.1 hx with rfl | hx
          · exact hd.bin.1
          · exact this.1 x hx
      · exact ⟨by simp, fun hd => ⟨by simp, hd⟩⟩
    · exact ⟨by simp, fun hd => ⟨by simp, hd⟩⟩

theorem omegaAccepts_sound {order : List Int → List Int} {goal : Term} (hd : DeBruijn goal)
    (h : omegaAccepts order goal = true) (ρ : Int → ℤ) (σ : String → ℤ) {T : Term → Prop}
    (hT : Meaning ρ σ T) : T goal := by
  have hg := extractImplications_spec goal hT
  refine hg.1.2 (fun hyps => ?_)
  have hdd := hg.2 hd
  unfold omegaAccepts at h
  have hf := omegaFacts_spec (extractImplications goal).1 Interner.new_ok hdd.1
  generalize extractImplications goal = ic at *
  obtain ⟨hs, concl⟩ := ic
  simp only at *
  generalize omegaFacts hs Interner.new = fv at *
  obtain ⟨fs, w⟩ := fv
  simp only at *
  unfold omegaConclude at h
  split at h
  · cases h
  · rename_i r a b e
    obtain ⟨s, hs', rfl⟩ := extractComparison_some e
    split at h
    · cases h
    · rename_i x y w' er
      obtain ⟨v1, ha, hb⟩ := readBoth_some er
      have hx := ha.good (linear_interp (RingHom.id ℤ))
      have hy := hb.good (linear_interp (RingHom.id ℤ))
      have o1 := ha.ok hf.1
      have o2 := hb.ok o1.1
      obtain ⟨τ, hτ⟩ := exists_index ρ σ o2.1
      have da := ha.denotes (linear_interp (RingHom.id ℤ)) hf.1 hdd.2.bin.1 τ ρ σ (hτ.mono o2.2)
      have db := hb.denotes (linear_interp (RingHom.id ℤ)) o1.1 hdd.2.bin.2 τ ρ σ hτ
      rw [hT.comparison s r a b _ _ (relOf_some.1 hs') da db]
      by_contra hc
      refine omegaUnsat_sound (order := order) ?_ h (fun i => ((τ i : ℤ) : ℚ)) ?_
      · intro c hc
        rcases List.mem_append.1 hc with hc | hc
        · exact (hf.2.2.1 c hc).1
        · rw [List.mem_singleton.1 hc]; exact (omegaNegated_clean hx hy r).1
      · intro c hc'
        rw [holds_cast]
        rcases List.mem_append.1 hc' with hc' | hc'
        · refine hf.2.2.2 τ ρ σ ((hτ.mono o2.2).mono o1.2) ?_ c hc'
          intro t ht s r a b x y e hr hda hdb
          subst e
          exact (hT.comparison s r a b x y (relOf_some.1 hr) hda hdb).1 (hyps _ ht)
        · rw [List.mem_singleton.1 hc', omegaNegated_int hx hy]; exact hc

/-! ## Linear terms are read -/

theorem isConstant_add {R : Type} [Ring R] [DecidableEq R] {a b : LExpr R} (ha : a.isConstant = true)
    (hb : b.isConstant = true) : (a.add b).isConstant = true := by
  unfold LExpr.isConstant at *
  rw [List.isEmpty_iff] at *
  simp [LExpr.add, ha, hb]

theorem isConstant_neg {R : Type} [Ring R] [DecidableEq R] {a : LExpr R} (ha : a.isConstant = true) :
    a.neg.isConstant = true := by
  unfold LExpr.isConstant at *
  rw [List.isEmpty_iff] at *
  simp [LExpr.neg, ha]

theorem isConstant_scale {R : Type} [Ring R] [DecidableEq R] {a : LExpr R} (ha : a.isConstant = true)
    (c : R) : (a.scale c).isConstant = true := by
  unfold LExpr.isConstant at *
  rw [List.isEmpty_iff] at *
  unfold LExpr.scale
  split <;> simp [LExpr.constant, ha]

theorem closed_reads (R : Type) [Ring R] [DecidableEq R] {t : Term} (h : Closed t) : ∀ v,
    ∃ p v', Reads (linearAlgebra R) t v p v' ∧ p.isConstant = true := by
  induction h with
  | lit n => intro v; exact ⟨_, _, .lit n v, rfl⟩
  | add _ _ ih1 ih2 =>
    intro v
    obtain ⟨p, v1, h1, c1⟩ := ih1 v
    obtain ⟨q, v2, h2, c2⟩ := ih2 v1
    exact ⟨_, _, .add h1 h2, isConstant_add c1 c2⟩
  | sub _ _ ih1 ih2 =>
    intro v
    obtain ⟨p, v1, h1, c1⟩ := ih1 v
    obtain ⟨q, v2, h2, c2⟩ := ih2 v1
    exact ⟨_, _, .sub h1 h2, isConstant_add c1 (isConstant_neg c2)⟩
  | mul _ _ ih1 ih2 =>
    intro v
    obtain ⟨p, v1, h1, c1⟩ := ih1 v
    obtain ⟨q, v2, h2, c2⟩ := ih2 v1
    refine ⟨_, _, .mul h1 h2 (z := q.scale p.const) ?_, isConstant_scale c2 _⟩
    show linearMul p q = _
    simp [linearMul, c1]

theorem linear_reads (R : Type) [Ring R] [DecidableEq R] {t : Term} (h : Linear t) : ∀ v,
    ∃ p v', Reads (linearAlgebra R) t v p v' := by
  induction h with
  | lit n => intro v; exact ⟨_, _, .lit n v⟩
  | var i => intro v; exact ⟨_, _, .var i v⟩
  | name s => intro v; exact ⟨_, _, .name s v⟩
  | add _ _ ih1 ih2 =>
    intro v
    obtain ⟨p, v1, h1⟩ := ih1 v
    obtain ⟨q, v2, h2⟩ := ih2 v1
    exact ⟨_, _, .add h1 h2⟩
  | sub _ _ ih1 ih2 =>
    intro v
    obtain ⟨p, v1, h1⟩ := ih1 v
    obtain ⟨q, v2, h2⟩ := ih2 v1
    exact ⟨_, _, .sub h1 h2⟩
  | mulLeft hc _ ih =>
    intro v
    obtain ⟨p, v1, h1, c1⟩ := closed_reads R hc v
    obtain ⟨q, v2, h2⟩ := ih v1
    refine ⟨_, _, .mul h1 h2 (z := q.scale p.const) ?_⟩
    show linearMul p q = _
    simp [linearMul, c1]
  | mulRight _ hc ih =>
    intro v
    obtain ⟨p, v1, h1⟩ := ih v
    obtain ⟨q, v2, h2, c2⟩ := closed_reads R hc v1
    by_cases hp : p.isConstant = true
    · refine ⟨_, _, .mul h1 h2 (z := q.scale p.const) ?_⟩
      show linearMul p q = _
      simp [linearMul, hp]
    · refine ⟨_, _, .mul h1 h2 (z := p.scale q.const) ?_⟩
      show linearMul p q = _
      simp [linearMul, hp, c2]

/-! ## There is a meaning -/

open Classical in
/-- A meaning of goals. -/
noncomputable def truth {R : Type} [Ring R] [LT R] [LE R] (ρ : Int → R) (σ : String → R) :
    Term → Prop
  | .app (.app (.global c) (.app (.app (.global c2) name) a)) b =>
    if c = "SApp" ∧ c2 = "SApp" ∧ (name = sName "Implies" ∨ name = sName "implies") then
      (truth ρ σ a → truth ρ σ b)
    else ∃ s r x y, name = sName s ∧ relOf s = some r ∧ Denotes ρ σ a x ∧ Denotes ρ σ b y ∧ r.Holds x y
  | _ => False

theorem truth_meaning {R : Type} [Ring R] [LT R] [LE R] (ρ : Int → R) (σ : String → R) :
    Meaning ρ σ (truth ρ σ) := by
  constructor
  · intro s r a b x y hr0 ha hb
    have hr := relOf_some.2 hr0
    have hne : ¬ (sName s = sName "Implies" ∨ sName s = sName "implies") := by
      rintro (h | h)
      · have : s = "Implies" := by simpa [sName] using h
        subst this; cases hr
      · have : s = "implies" := by simpa [sName] using h
        subst this; cases hr
    simp only [sBin, sApp, truth, hne, and_false, if_false]
    constructor
    · rintro ⟨s', r', x', y', hs, hr', ha', hb', hh⟩
      have e : s = s' := by simpa [sName] using hs
      subst e
      rw [hr] at hr'; cases hr'
      rw [ha.unique ha', hb.unique hb']; exact hh
    · intro h; exact ⟨s, r, x, y, rfl, hr, ha, hb, h⟩
  · intro s a b hs
    have : sName s = sName "Implies" ∨ sName s = sName "implies" := by
      rcases hs with rfl | rfl <;> simp
    simp [sBin, sApp, truth, this]

end Verif.Kernel
