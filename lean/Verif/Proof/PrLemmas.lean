import Verif.Proof.Pr
import Verif.Proof.RupLemmas
/-!
# Lemmas about the propagation-redundancy checker
-/

namespace Verif.Proof

theorem mem_dedupAdj {A : Type} [DecidableEq A] {x : A} : ∀ {l : List A}, x ∈ dedupAdj l ↔ x ∈ l
  | [] => by simp [dedupAdj]
  | [y] => by simp [dedupAdj]
  | y :: z :: r => by
    rw [dedupAdj]
    split
    · rename_i h; subst h
      rw [mem_dedupAdj]; simp
    · rw [List.mem_cons, mem_dedupAdj, List.mem_cons (l := z :: r)]

theorem code_inj {l m : Lit} (h : l.code = m.code) : l = m := by
  cases l with
  | mk v p =>
    cases m with
    | mk w q =>
      unfold Lit.code at h
      cases p <;> cases q <;> simp at h ⊢ <;> omega

theorem mem_canonClause {c : Clause} {k : Nat} : k ∈ canonClause c ↔ ∃ l ∈ c, l.code = k := by
  unfold canonClause
  rw [mem_dedupAdj, (sortBy_perm _ _).mem_iff, List.mem_map]

theorem canon_eq_mem {c d : Clause} (h : canonClause c = canonClause d) (l : Lit) :
    l ∈ c ↔ l ∈ d := by
  have key : ∀ {c : Clause}, l ∈ c ↔ l.code ∈ canonClause c := by
    intro c
    rw [mem_canonClause]
    constructor
    · intro h; exact ⟨l, h, rfl⟩
    · rintro ⟨m, hm, e⟩; rw [← code_inj e]; exact hm
  rw [key, key, h]

/-- Strictly increasing lists with the same members are equal. -/
theorem strict_ext : ∀ {a b : List Nat}, a.Pairwise (· < ·) → b.Pairwise (· < ·) →
    (∀ x, x ∈ a ↔ x ∈ b) → a = b
  | [], [], _, _, _ => rfl
  | [], y :: ys, _, _, h => by have := (h y).mpr (by simp); simp at this
  | x :: xs, [], _, _, h => by have := (h x).mp (by simp); simp at this
  | x :: xs, y :: ys, ha, hb, h => by
    rw [List.pairwise_cons] at ha hb
    have hxy : x = y := by
      have h1 := (h x).mp (by simp)
      have h2 := (h y).mpr (by simp)
      rcases List.mem_cons.mp h1 with e | h1
      · exact e
      · rcases List.mem_cons.mp h2 with e | h2
        · exact e.symm
        · have := ha.1 y h2
          have := hb.1 x h1
          omega
    subst hxy
    rw [strict_ext ha.2 hb.2 (by
      intro z
      constructor
      · intro hz
        rcases List.mem_cons.mp ((h z).mp (List.mem_cons_of_mem _ hz)) with e | hz'
        · have := ha.1 z hz; omega
        · exact hz'
      · intro hz
        rcases List.mem_cons.mp ((h z).mpr (List.mem_cons_of_mem _ hz)) with e | hz'
        · have := hb.1 z hz; omega
        · exact hz')]

theorem dedupAdj_strict : ∀ {l : List Nat}, l.Pairwise (· ≤ ·) → (dedupAdj l).Pairwise (· < ·)
  | [], _ => by simp [dedupAdj]
  | [x], _ => by simp [dedupAdj]
  | x :: y :: r, h => by
    rw [List.pairwise_cons] at h
    rw [dedupAdj]
    split
    · exact dedupAdj_strict h.2
    · rename_i hne
      refine List.Pairwise.cons ?_ (dedupAdj_strict h.2)
      intro z hz
      have hz' := mem_dedupAdj.mp hz
      have h1 := h.1 y (by simp)
      rcases List.mem_cons.mp hz' with rfl | hz''
      · omega
      · have := (List.pairwise_cons.mp h.2).1 z hz''
        omega

theorem canon_eq_iff {c d : Clause} : canonClause c = canonClause d ↔ ∀ l, l ∈ c ↔ l ∈ d := by
  constructor
  · exact canon_eq_mem
  · intro h
    have hs : ∀ c : Clause, (canonClause c).Pairwise (· < ·) := by
      intro c
      apply dedupAdj_strict
      have := sortBy_pairwise (le := fun a b : Nat => decide (a ≤ b)) (by simp; omega)
        (by simp; omega) (c.map Lit.code)
      simpa using this
    apply strict_ext (hs c) (hs d)
    intro k
    rw [mem_canonClause, mem_canonClause]
    constructor
    · rintro ⟨l, hl, e⟩; exact ⟨l, (h l).mp hl, e⟩
    · rintro ⟨l, hl, e⟩; exact ⟨l, (h l).mpr hl, e⟩

theorem holds_congr {c d : Clause} (τ : Nat → Bool) (h : ∀ l, l ∈ c ↔ l ∈ d) :
    Clause.holds τ c ↔ Clause.holds τ d := by
  unfold Clause.holds
  constructor
  · rintro ⟨l, hl, h1⟩; exact ⟨l, (h l).mp hl, h1⟩
  · rintro ⟨l, hl, h1⟩; exact ⟨l, (h l).mpr hl, h1⟩

/-! ## Substitutions -/

/-- The assignment that gives each variable the value of its image. -/
def pullback (σ : Perm) (τ : Nat → Bool) (v : Nat) : Bool :=
  match σ[v]? with
  | none => τ v
  | some img => if img.pos then τ img.var else !τ img.var

theorem pullback_apply {σ : Perm} {τ : Nat → Bool} {l m : Lit} (h : σ.apply l = some m) :
    l.holds (pullback σ τ) ↔ m.holds τ := by
  unfold Perm.apply at h
  split at h
  · cases h
  · rename_i img hi
    simp only [Option.some.injEq] at h
    unfold Lit.holds pullback
    rw [hi]
    subst h
    cases l with
    | mk v p =>
      cases img with
      | mk w q => cases p <;> cases q <;> simp [Lit.negated]

theorem pullback_fixed {σ : Perm} {τ : Nat → Bool} {v : Nat} (h : σ.moves v = false) :
    pullback σ τ v = τ v := by
  unfold Perm.moves at h
  unfold pullback
  split
  · rfl
  · rename_i img hi
    rw [hi] at h
    simp at h
    simp [h]

theorem applyClause_mem {σ : Perm} : ∀ {c d : Clause}, σ.applyClause c = some d →
    (∀ m ∈ d, ∃ l ∈ c, σ.apply l = some m) ∧ (∀ l ∈ c, ∃ m ∈ d, σ.apply l = some m) := by
  intro c
  induction c with
  | nil => intro d h; simp only [Perm.applyClause, Option.some.injEq] at h; subst h; simp
  | cons l ls ih =>
    intro d h
    rw [Perm.applyClause] at h
    split at h
    · cases h
    · rename_i m hm
      split at h
      · cases h
      · rename_i ms hms
        simp only [Option.some.injEq] at h
        subst h
        obtain ⟨h1, h2⟩ := ih hms
        constructor
        · intro x hx
          rcases List.mem_cons.mp hx with rfl | hx
          · exact ⟨l, by simp, hm⟩
          · obtain ⟨y, hy, e⟩ := h1 x hx
            exact ⟨y, List.mem_cons_of_mem _ hy, e⟩
        · intro x hx
          rcases List.mem_cons.mp hx with rfl | hx
          · exact ⟨m, by simp, hm⟩
          · obtain ⟨y, hy, e⟩ := h2 x hx
            exact ⟨y, List.mem_cons_of_mem _ hy, e⟩

theorem applyClause_holds {σ : Perm} {τ : Nat → Bool} {c d : Clause}
    (h : σ.applyClause c = some d) : Clause.holds (pullback σ τ) c ↔ Clause.holds τ d := by
  obtain ⟨h1, h2⟩ := applyClause_mem h
  unfold Clause.holds
  constructor
  · rintro ⟨l, hl, hh⟩
    obtain ⟨m, hm, e⟩ := h2 l hl
    exact ⟨m, hm, (pullback_apply e).mp hh⟩
  · rintro ⟨m, hm, hh⟩
    obtain ⟨l, hl, e⟩ := h1 m hm
    exact ⟨l, hl, (pullback_apply e).mpr hh⟩

theorem applyClause_isSome {σ : Perm} : ∀ {c : Clause}, InRange σ.length c →
    ∃ d, σ.applyClause c = some d := by
  intro c
  induction c with
  | nil => intro _; exact ⟨[], rfl⟩
  | cons l ls ih =>
    intro h
    obtain ⟨ms, hms⟩ := ih (fun m hm => h m (List.mem_cons_of_mem _ hm))
    have hl := h l (by simp)
    rw [Perm.applyClause, Perm.apply, List.getElem?_eq_getElem hl]
    simp only [hms]
    exact ⟨_, rfl⟩

theorem automorphismLoop_true {db : List Clause} {σ : Perm} : ∀ {cs : List Clause},
    automorphismLoop db σ cs = some true → ∀ c ∈ cs,
      (∀ l ∈ c, σ.moves l.var = false) ∨
      ∃ d, σ.applyClause c = some d ∧ ∃ e ∈ db, canonClause e = canonClause d := by
  intro cs
  induction cs with
  | nil => intro _ c hc; simp at hc
  | cons c cs ih =>
    intro h x hx
    rw [automorphismLoop] at h
    split at h
    · rename_i ht
      split at h
      · cases h
      · rename_i d hd
        split at h
        · rename_i hin
          rcases List.mem_cons.mp hx with rfl | hx
          · obtain ⟨e, he, h1⟩ := List.mem_map.mp hin
            exact Or.inr ⟨d, hd, e, he, h1⟩
          · exact ih h x hx
        · cases h
    · rename_i ht
      rcases List.mem_cons.mp hx with rfl | hx
      · left
        intro l hl
        simp only [List.any_eq_true, not_exists, not_and, Bool.not_eq_true] at ht
        exact ht l hl
      · exact ih h x hx

theorem pullback_models {db : List Clause} {σ : Perm} {τ : Nat → Bool}
    (h : permIsAutomorphism db σ = some true) (hm : Models τ db) : Models (pullback σ τ) db := by
  have fixed : ∀ c ∈ db, (∀ l ∈ c, σ.moves l.var = false) → Clause.holds (pullback σ τ) c := by
    intro c hc hf
    obtain ⟨l, hl, hh⟩ := hm c hc
    refine ⟨l, hl, ?_⟩
    unfold Lit.holds at *
    rw [pullback_fixed (hf l hl)]; exact hh
  unfold permIsAutomorphism at h
  intro c hc
  split at h
  · rename_i hall
    apply fixed c hc
    intro l _
    simp only [List.all_eq_true, List.mem_range, Bool.not_eq_true'] at hall
    by_cases hl : l.var < σ.length
    · exact hall _ hl
    · unfold Perm.moves
      rw [List.getElem?_eq_none (by omega)]
  · rcases automorphismLoop_true h c hc with hf | ⟨d, hd, e, he, hk⟩
    · exact fixed c hc hf
    · rw [applyClause_holds hd, ← holds_congr τ (canon_eq_mem hk)]
      exact hm e he

theorem substitutionSr_sound {n : Nat} {db : List Clause} {c : Clause} {σ : Perm}
    (h : substitutionSr n db c σ = some true) (hs : Satisfiable db) : Satisfiable (db ++ [c]) := by
  obtain ⟨τ, hm⟩ := hs
  unfold substitutionSr at h
  split at h
  · cases h
  · cases h
  · rename_i ha
    split at h
    · cases h
    · rename_i d hd
      by_cases hc : Clause.holds τ c
      · exact ⟨τ, models_append.mpr ⟨hm, models_singleton.mpr hc⟩⟩
      · by_cases hcd : Clause.holds τ d
        · exact ⟨pullback σ τ, models_append.mpr ⟨pullback_models ha hm,
            models_singleton.mpr ((applyClause_holds hd).mpr hcd)⟩⟩
        · exfalso
          apply upConflict_models h hm
          intro l hl
          rcases List.mem_append.mp hl with hl | hl
          · obtain ⟨m, hm', rfl⟩ := List.mem_map.mp hl
            exact (Lit.holds_negated τ m).mpr (fun hh => hc ⟨m, hm', hh⟩)
          · obtain ⟨m, hm', rfl⟩ := List.mem_map.mp hl
            exact (Lit.holds_negated τ m).mpr (fun hh => hcd ⟨m, hm', hh⟩)

/-! ## Assignment witnesses -/

/-- `τ` overridden by the witness. -/
def override (ω : PAssign) (τ : Nat → Bool) (v : Nat) : Bool :=
  match ω[v]? with
  | some (some b) => b
  | _ => τ v

theorem override_true {ω : PAssign} {τ : Nat → Bool} {l : Lit} (h : litVal ω l = some (some true)) :
    l.holds (override ω τ) := by
  unfold Lit.holds override
  rw [litVal_some h]
  rcases Bool.eq_false_or_eq_true l.pos with hp | hp <;> simp [hp]

theorem override_none {ω : PAssign} {τ : Nat → Bool} {l : Lit} (h : litVal ω l = some none)
    (hh : l.holds τ) : l.holds (override ω τ) := by
  unfold Lit.holds override
  rw [litVal_none h]; exact hh

theorem anyTrue_true {ω : PAssign} : ∀ {c : Clause}, anyTrue ω c = some true →
    ∃ l ∈ c, litVal ω l = some (some true) := by
  intro c
  induction c with
  | nil => intro h; simp [anyTrue] at h
  | cons l ls ih =>
    intro h
    rw [anyTrue] at h
    split at h
    · cases h
    · rename_i ht; exact ⟨l, by simp, ht⟩
    · obtain ⟨m, hm, ht⟩ := ih h; exact ⟨m, List.mem_cons_of_mem _ hm, ht⟩

theorem obligations_true {n : Nat} {db : List Clause} {α : List Lit} {ω : PAssign} :
    ∀ {ds : List Clause}, obligations n db α ω ds = some true → ∀ d ∈ ds,
      (∃ l ∈ d, litVal ω l = some (some true)) ∨
        upConflict n db (α ++ restNegated ω d) = some true := by
  intro ds
  induction ds with
  | nil => intro _ d hd; simp at hd
  | cons d ds ih =>
    intro h x hx
    rw [obligations] at h
    split at h
    · cases h
    · rename_i ht
      rcases List.mem_cons.mp hx with rfl | hx
      · exact Or.inl (anyTrue_true ht)
      · exact ih h x hx
    · split at h
      · cases h
      · cases h
      · rename_i hu
        rcases List.mem_cons.mp hx with rfl | hx
        · exact Or.inr hu
        · exact ih h x hx

theorem assignmentPr_sound {n : Nat} {db : List Clause} {c : Clause} {w : List Lit}
    (h : assignmentPr n db c w = some true) (hs : Satisfiable db) : Satisfiable (db ++ [c]) := by
  obtain ⟨τ, hm⟩ := hs
  unfold assignmentPr at h
  split at h
  · cases h
  · cases h
  · rename_i ω hω
    split at h
    · cases h
    · cases h
    · rename_i hat
      by_cases hc : Clause.holds τ c
      · exact ⟨τ, models_append.mpr ⟨hm, models_singleton.mpr hc⟩⟩
      · refine ⟨override ω τ, models_append.mpr ⟨?_, models_singleton.mpr ?_⟩⟩
        · intro d hd
          rcases obligations_true h d hd with ⟨l, hl, ht⟩ | hu
          · exact ⟨l, hl, override_true ht⟩
          · apply Classical.byContradiction
            intro hno
            apply upConflict_models hu hm
            intro l hl
            rcases List.mem_append.mp hl with hl | hl
            · obtain ⟨m, hm', rfl⟩ := List.mem_map.mp hl
              exact (Lit.holds_negated τ m).mpr (fun hh => hc ⟨m, hm', hh⟩)
            · obtain ⟨m, hm', rfl⟩ := List.mem_map.mp hl
              obtain ⟨hmd, hmn⟩ := List.mem_filter.mp hm'
              simp only [decide_eq_true_eq] at hmn
              exact (Lit.holds_negated τ m).mpr (fun hh => hno ⟨m, hmd, override_none hmn hh⟩)
        · obtain ⟨l, hl, ht⟩ := anyTrue_true hat
          exact ⟨l, hl, override_true ht⟩

theorem isPr_sound {n : Nat} {db : List Clause} {c : Clause} {w : Witness}
    (h : isPr n db c w = some true) (hs : Satisfiable db) : Satisfiable (db ++ [c]) := by
  cases w with
  | assignment w => exact assignmentPr_sound h hs
  | substitution σ => exact substitutionSr_sound h hs

theorem isRup_sound {n : Nat} {db : List Clause} {c : Clause} {τ : Nat → Bool}
    (h : isRup n db c = some true) (hm : Models τ db) : Clause.holds τ c := by
  apply Classical.byContradiction
  intro hno
  apply upConflict_models h hm
  intro l hl
  obtain ⟨m, hm', rfl⟩ := List.mem_map.mp hl
  exact (Lit.holds_negated τ m).mpr (fun hh => hno ⟨m, hm', hh⟩)

theorem isRup_sat {n : Nat} {db : List Clause} {c : Clause}
    (h : isRup n db c = some true) (hs : Satisfiable db) : Satisfiable (db ++ [c]) := by
  obtain ⟨τ, hm⟩ := hs
  exact ⟨τ, models_append.mpr ⟨hm, models_singleton.mpr (isRup_sound h hm)⟩⟩

theorem swapRemove_subset {A : Type} {xs : List A} {i : Nat} {x : A} (h : x ∈ swapRemove xs i) :
    x ∈ xs := by
  unfold swapRemove at h
  split at h
  · exact h
  · rename_i z hz
    have h1 := (List.dropLast_sublist _).subset h
    rcases List.mem_or_eq_of_mem_set h1 with h2 | h2
    · exact h2
    · rw [h2]; exact List.mem_of_getLast? hz

theorem deleteClause_subset {db : List Clause} {c x : Clause} (h : x ∈ deleteClause db c) : x ∈ db := by
  unfold deleteClause at h
  split at h
  · exact h
  · exact swapRemove_subset h

theorem checkPr_sound {n : Nat} : ∀ {steps : List ProofStep} {db : List Clause},
    checkPr n db steps = some true → ¬ Satisfiable db := by
  intro steps
  induction steps with
  | nil =>
    intro db h hs
    obtain ⟨τ, hm⟩ := hs
    obtain ⟨l, hl, _⟩ := isRup_sound h hm
    simp at hl
  | cons s steps ih =>
    intro db h hs
    cases s with
    | rup c =>
      rw [checkPr] at h
      split at h
      · cases h
      · cases h
      · rename_i hr; exact ih h (isRup_sat hr hs)
    | pr c w =>
      rw [checkPr] at h
      split at h
      · cases h
      · cases h
      · rename_i hr; exact ih h (isPr_sound hr hs)
    | delete c =>
      rw [checkPr] at h
      apply ih h
      obtain ⟨τ, hm⟩ := hs
      exact ⟨τ, fun x hx => hm x (deleteClause_subset hx)⟩

/-! ## Acceptance -/

theorem anyTrue_inRange {ω : PAssign} : ∀ {c : Clause}, InRange ω.length c →
    (anyTrue ω c = some true ∧ ∃ l ∈ c, litVal ω l = some (some true)) ∨
    (anyTrue ω c = some false ∧ ∀ l ∈ c, litVal ω l ≠ some (some true)) := by
  intro c
  induction c with
  | nil => intro _; right; simp [anyTrue]
  | cons l ls ih =>
    intro h
    rw [anyTrue]
    split
    · rename_i hp
      have := litVal_panic.mp hp
      have := h l (by simp)
      omega
    · rename_i ht; left; exact ⟨rfl, l, by simp, ht⟩
    · rename_i o hne ho
      rcases ih (fun m hm => h m (List.mem_cons_of_mem _ hm)) with ⟨h1, m, hm, h2⟩ | ⟨h1, h2⟩
      · exact Or.inl ⟨h1, m, List.mem_cons_of_mem _ hm, h2⟩
      · refine Or.inr ⟨h1, ?_⟩
        intro m hm
        rcases List.mem_cons.mp hm with rfl | hm
        · intro he; rw [he] at ho; simp at ho; exact hne ho.symm
        · exact h2 m hm

theorem automorphismLoop_complete {db : List Clause} {σ : Perm} : ∀ {cs : List Clause},
    (∀ c ∈ cs, InRange σ.length c) →
    (∀ c ∈ cs, ∀ d, σ.applyClause c = some d → ∃ e ∈ db, ∀ l, l ∈ e ↔ l ∈ d) →
    automorphismLoop db σ cs = some true := by
  intro cs
  induction cs with
  | nil => intro _ _; rfl
  | cons c cs ih =>
    intro hr h
    have hrest := ih (fun x hx => hr x (List.mem_cons_of_mem _ hx))
      (fun x hx => h x (List.mem_cons_of_mem _ hx))
    rw [automorphismLoop]
    split
    · obtain ⟨d, hd⟩ := applyClause_isSome (hr c (by simp))
      rw [hd]
      obtain ⟨e, he, hk⟩ := h c (by simp) d hd
      simp only
      rw [if_pos (List.mem_map.mpr ⟨e, he, canon_eq_iff.mpr hk⟩)]
      exact hrest
    · exact hrest

theorem permIsAutomorphism_complete {db : List Clause} {σ : Perm}
    (hr : ∀ c ∈ db, InRange σ.length c)
    (h : ∀ c ∈ db, ∀ d, σ.applyClause c = some d → ∃ e ∈ db, ∀ l, l ∈ e ↔ l ∈ d) :
    permIsAutomorphism db σ = some true := by
  unfold permIsAutomorphism
  split
  · rfl
  · exact automorphismLoop_complete hr h

theorem obligations_complete {n : Nat} {db : List Clause} {α : List Lit} {ω : PAssign} :
    ∀ {ds : List Clause}, (∀ c ∈ ds, InRange ω.length c) →
      (∀ d ∈ ds, (∀ l ∈ d, litVal ω l ≠ some (some true)) →
        upConflict n db (α ++ restNegated ω d) = some true) →
      obligations n db α ω ds = some true := by
  intro ds
  induction ds with
  | nil => intro _ _; rfl
  | cons d ds ih =>
    intro hr h
    have hrest := ih (fun x hx => hr x (List.mem_cons_of_mem _ hx))
      (fun x hx => h x (List.mem_cons_of_mem _ hx))
    rw [obligations]
    rcases anyTrue_inRange (hr d (by simp)) with ⟨h1, _⟩ | ⟨h1, h2⟩
    · rw [h1]; exact hrest
    · rw [h1]
      simp only
      rw [h d (by simp) h2]
      exact hrest

end Verif.Proof
