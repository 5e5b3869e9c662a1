import Verif.Proof.Rup
/-!
# Soundness and completeness of the unit-propagation core
-/

namespace Verif.Proof

/-- Specification: the literals unit propagation derives from `db` once the literals `as` are
assumed. -/
inductive UP (db : List Clause) (as : List Lit) : Lit → Prop
  | assumed {l} : l ∈ as → UP db as l
  | unit {c l} : c ∈ db → l ∈ c → (∀ m ∈ c, m ≠ l → UP db as m.negated) → UP db as l

/-- Specification: unit propagation reaches a conflict. -/
def UPConflict (db : List Clause) (as : List Lit) : Prop :=
  (∃ c ∈ db, ∀ m ∈ c, UP db as m.negated) ∨ (∃ l, UP db as l ∧ UP db as l.negated)

/-- Variables of a clause set are below `n`. -/
def InRange (n : Nat) (ls : List Lit) : Prop := ∀ l ∈ ls, l.var < n

theorem litVal_some {a : PAssign} {l : Lit} {b : Bool} (h : litVal a l = some (some b)) :
    a[l.var]? = some (some (if l.pos then b else !b)) := by
  unfold litVal at h
  split at h
  · cases h
  · rename_i o ho
    rw [ho]
    cases o with
    | none => simp at h
    | some x =>
      simp only [Option.map_some, Option.some.injEq] at h
      cases hp : l.pos <;> simp [hp] at h ⊢ <;> simp [← h]

theorem litVal_none {a : PAssign} {l : Lit} (h : litVal a l = some none) :
    a[l.var]? = some none := by
  unfold litVal at h
  split at h
  · cases h
  · rename_i o ho
    rw [ho]
    cases o with
    | none => rfl
    | some x => simp at h

theorem litVal_panic {a : PAssign} {l : Lit} : litVal a l = none ↔ a.length ≤ l.var := by
  unfold litVal
  split
  · rename_i h; simpa using h
  · rename_i o h
    have := (List.getElem?_eq_some_iff.mp h).1
    simp; omega

theorem litVal_negated {a : PAssign} {l : Lit} {b : Bool} (h : litVal a l = some (some b)) :
    litVal a l.negated = some (some (!b)) := by
  have := litVal_some h
  unfold litVal
  simp only [Lit.negated_var, this, Option.map_some, Lit.negated_pos]
  rcases Bool.eq_false_or_eq_true l.pos with hp | hp <;> simp [hp]

theorem litVal_none_negated {a : PAssign} {l : Lit} (h : litVal a l = some none) :
    litVal a l.negated = some none := by
  have := litVal_none h
  unfold litVal
  simp [this]

/-- What a partial assignment knows: the literals it makes true all satisfy `P`. -/
def Justified (P : Lit → Prop) (a : PAssign) : Prop :=
  ∀ l, litVal a l = some (some true) → P l

theorem justified_empty (P : Lit → Prop) (n : Nat) : Justified P (List.replicate n none) := by
  intro l h
  have := litVal_some h
  rw [List.getElem?_replicate] at this
  split at this <;> simp at this

theorem litVal_set {a : PAssign} {l m : Lit} (h : litVal a l = some none) :
    litVal (a.set l.var (some l.pos)) m =
      if m = l then some (some true) else if m = l.negated then some (some false)
      else litVal a m := by
  have hl := litVal_none h
  have hlt := (List.getElem?_eq_some_iff.mp hl).1
  unfold litVal
  rw [List.getElem?_set]
  by_cases hv : l.var = m.var
  · have hm : m = l ∨ m = l.negated := by
      cases l with
      | mk v p =>
        cases m with
        | mk w q => simp at hv; subst hv; cases p <;> cases q <;> simp [Lit.negated]
    rcases hm with rfl | rfl
    · simp only [if_pos rfl, hlt, if_true, Option.map_some]
      cases m.pos <;> simp
    · have : l.negated ≠ l := Lit.negated_ne l
      simp only [Lit.negated_var, if_pos rfl, hlt, if_true, if_neg this, Option.map_some,
        Lit.negated_pos]
      rcases Bool.eq_false_or_eq_true l.pos with hp | hp <;> simp [hp]
  · have h1 : m ≠ l := by rintro rfl; exact hv rfl
    have h2 : m ≠ l.negated := by rintro rfl; exact hv rfl
    simp [hv, h1, h2]

theorem setTrue_length {a a' : PAssign} {l : Lit} {b : Bool} (h : setTrue a l = some (b, a')) :
    a'.length = a.length := by
  unfold setTrue at h
  split at h <;> simp at h <;> simp [← h.2]

theorem setTrue_justified {P : Lit → Prop} {a a' : PAssign} {l : Lit}
    (h : setTrue a l = some (true, a')) (hj : Justified P a) (hl : P l) : Justified P a' := by
  unfold setTrue at h
  split at h
  · cases h
  · simp at h; rw [← h]; exact hj
  · simp at h
  · rename_i hn
    simp at h
    rw [← h]
    intro m hm
    rw [litVal_set hn] at hm
    split at hm
    · rename_i e; rw [e]; exact hl
    · split at hm
      · simp at hm
      · exact hj m hm

theorem setTrue_clash {a a' : PAssign} {l : Lit} (h : setTrue a l = some (false, a')) :
    litVal a l.negated = some (some true) := by
  unfold setTrue at h
  split at h
  · cases h
  · simp at h
  · rename_i hn; exact litVal_negated hn
  · simp at h

/-- Result of scanning: what the accumulated literals mean. -/
theorem scan_unset {a : PAssign} {c : Clause} : ∀ {u us : List Lit}, scan a u c = .unset us →
    (∀ l ∈ u, litVal a l = some none) →
    (∀ l ∈ us, litVal a l = some none) ∧ (∀ l ∈ u, l ∈ us) ∧ (∀ l ∈ us, l ∈ u ∨ l ∈ c) ∧
      (∀ l ∈ c, litVal a l = some (some false) ∨ l ∈ us) ∧ (u.Nodup → us.Nodup) := by
  induction c with
  | nil =>
    intro u us h hu
    simp only [scan, Scan.unset.injEq] at h
    subst h
    simp; exact hu
  | cons l ls ih =>
    intro u us h hu
    rw [scan] at h
    split at h
    · cases h
    · cases h
    · rename_i hf
      obtain ⟨h1, h2, h3, h4, h5⟩ := ih h hu
      refine ⟨h1, h2, ?_, ?_, h5⟩
      · intro m hm; rcases h3 m hm with h | h
        · exact Or.inl h
        · exact Or.inr (List.mem_cons_of_mem _ h)
      · intro m hm
        rcases List.mem_cons.mp hm with rfl | hm
        · exact Or.inl hf
        · exact h4 m hm
    · rename_i hn
      split at h
      · cases h
      · split at h
        · rename_i _ hin
          obtain ⟨h1, h2, h3, h4, h5⟩ := ih h hu
          refine ⟨h1, h2, ?_, ?_, h5⟩
          · intro m hm; rcases h3 m hm with h | h
            · exact Or.inl h
            · exact Or.inr (List.mem_cons_of_mem _ h)
          · intro m hm
            rcases List.mem_cons.mp hm with rfl | hm
            · exact Or.inr (h2 _ hin)
            · exact h4 m hm
        · rename_i _ hnin
          obtain ⟨h1, h2, h3, h4, h5⟩ := ih h (by
            intro m hm
            rcases List.mem_append.mp hm with hm | hm
            · exact hu m hm
            · rw [List.mem_singleton.mp hm]; exact hn)
          refine ⟨h1, fun m hm => h2 m (List.mem_append_left _ hm), ?_, ?_, ?_⟩
          · intro m hm
            rcases h3 m hm with h | h
            · rcases List.mem_append.mp h with h | h
              · exact Or.inl h
              · rw [List.mem_singleton.mp h]; exact Or.inr List.mem_cons_self
            · exact Or.inr (List.mem_cons_of_mem _ h)
          · intro m hm
            rcases List.mem_cons.mp hm with rfl | hm
            · exact Or.inr (h2 _ (by simp))
            · exact h4 m hm
          · intro hnd
            apply h5
            rw [List.nodup_append]
            refine ⟨hnd, by simp, ?_⟩
            intro x hx y hy
            rw [List.mem_singleton.mp hy]
            rintro rfl
            exact hnin hx

/-- A clause found satisfied has a true literal or two distinct unset ones. -/
theorem scan_satisfied {a : PAssign} {c : Clause} : ∀ {u : List Lit}, scan a u c = .satisfied →
    (∀ l ∈ u, litVal a l = some none) →
    (∃ l ∈ c, litVal a l = some (some true)) ∨
      (∃ l ∈ c, ∃ m, (m ∈ u ∨ m ∈ c) ∧ m ≠ l ∧ litVal a l = some none ∧ litVal a m = some none) := by
  induction c with
  | nil => intro u h _; simp [scan] at h
  | cons l ls ih =>
    intro u h hu
    rw [scan] at h
    split at h
    · cases h
    · rename_i ht
      exact Or.inl ⟨l, List.mem_cons_self, ht⟩
    · rcases ih h hu with ⟨m, hm, ht⟩ | ⟨m, hm, k, hk, h1, h2⟩
      · exact Or.inl ⟨m, List.mem_cons_of_mem _ hm, ht⟩
      · refine Or.inr ⟨m, List.mem_cons_of_mem _ hm, k, ?_, h1, h2⟩
        rcases hk with hk | hk
        · exact Or.inl hk
        · exact Or.inr (List.mem_cons_of_mem _ hk)
    · rename_i hn
      split at h
      · rename_i hin
        exact Or.inr ⟨l, List.mem_cons_self, l.negated, Or.inl hin, Lit.negated_ne l, hn, hu _ hin⟩
      · split at h
        · rcases ih h hu with ⟨m, hm, ht⟩ | ⟨m, hm, k, hk, h1, h2⟩
          · exact Or.inl ⟨m, List.mem_cons_of_mem _ hm, ht⟩
          · refine Or.inr ⟨m, List.mem_cons_of_mem _ hm, k, ?_, h1, h2⟩
            rcases hk with hk | hk
            · exact Or.inl hk
            · exact Or.inr (List.mem_cons_of_mem _ hk)
        · rcases ih h (by
            intro m hm
            rcases List.mem_append.mp hm with hm | hm
            · exact hu m hm
            · rw [List.mem_singleton.mp hm]; exact hn) with ⟨m, hm, ht⟩ | ⟨m, hm, k, hk, h1, h2⟩
          · exact Or.inl ⟨m, List.mem_cons_of_mem _ hm, ht⟩
          · refine Or.inr ⟨m, List.mem_cons_of_mem _ hm, k, ?_, h1, h2⟩
            rcases hk with hk | hk
            · rcases List.mem_append.mp hk with hk | hk
              · exact Or.inl hk
              · rw [List.mem_singleton.mp hk]; exact Or.inr List.mem_cons_self
            · exact Or.inr (List.mem_cons_of_mem _ hk)

theorem scan_panic {a : PAssign} {c : Clause} : ∀ {u : List Lit}, scan a u c = .panic →
    ∃ l ∈ c, a.length ≤ l.var := by
  induction c with
  | nil => intro u h; simp [scan] at h
  | cons l ls ih =>
    intro u h
    rw [scan] at h
    split at h
    · rename_i hp
      exact ⟨l, List.mem_cons_self, litVal_panic.mp hp⟩
    · cases h
    · obtain ⟨m, hm, h⟩ := ih h; exact ⟨m, List.mem_cons_of_mem _ hm, h⟩
    · split at h
      · cases h
      · split at h <;> (obtain ⟨m, hm, h⟩ := ih h; exact ⟨m, List.mem_cons_of_mem _ hm, h⟩)

/-- A justification closed under the unit rule of `db`. -/
def UnitClosed (db : List Clause) (P : Lit → Prop) : Prop :=
  ∀ c ∈ db, ∀ l ∈ c, (∀ m ∈ c, m ≠ l → P m.negated) → P l

theorem justified_false {P : Lit → Prop} {a : PAssign} (hj : Justified P a) {l : Lit}
    (h : litVal a l = some (some false)) : P l.negated :=
  hj _ (litVal_negated h)

theorem sweep_sound {P : Lit → Prop} {db : List Clause} (hc : UnitClosed db P) :
    ∀ {cs : List Clause} {a : PAssign} {ch : Bool}, (∀ c ∈ cs, c ∈ db) → Justified P a →
      (sweep a ch cs = .conflict → ∃ c ∈ db, ∀ m ∈ c, P m.negated) ∧
      (∀ a' ch', sweep a ch cs = .done a' ch' → Justified P a') := by
  intro cs
  induction cs with
  | nil =>
    intro a ch _ hj
    refine ⟨fun h => by simp [sweep] at h, ?_⟩
    intro a' ch' h
    simp only [sweep, Sweep.done.injEq] at h
    rw [← h.1]; exact hj
  | cons c cs ih =>
    intro a ch hdb hj
    have hdb' : ∀ c ∈ cs, c ∈ db := fun x hx => hdb x (List.mem_cons_of_mem _ hx)
    have hcdb := hdb c List.mem_cons_self
    rw [sweep]
    split
    · exact ⟨fun h => by simp at h, fun a' ch' h => by simp at h⟩
    · exact ih hdb' hj
    · rename_i hs
      refine ⟨fun _ => ⟨c, hcdb, ?_⟩, fun a' ch' h => by simp at h⟩
      intro m hm
      obtain ⟨_, _, _, h4, _⟩ := scan_unset hs (by simp)
      rcases h4 m hm with h | h
      · exact justified_false hj h
      · simp at h
    · rename_i l hs
      obtain ⟨h1, _, h3, h4, _⟩ := scan_unset hs (by simp)
      have hlu := h1 l (by simp)
      split
      · exact ⟨fun h => by simp at h, fun a' ch' h => by simp at h⟩
      · rename_i b a' hst
        have hb : b = true := by
          unfold setTrue at hst
          simp [hlu] at hst
          exact hst.1
        subst hb
        apply ih hdb'
        apply setTrue_justified hst hj
        apply hc c hcdb l
        · rcases h3 l (by simp) with h | h
          · simp at h
          · exact h
        · intro m hm hne
          rcases h4 m hm with h | h
          · exact justified_false hj h
          · exact absurd (List.mem_singleton.mp h) hne
    · exact ih hdb' hj

theorem propagateF_sound {P : Lit → Prop} {db : List Clause} (hc : UnitClosed db P) :
    ∀ {n : Nat} {a : PAssign}, Justified P a → propagateF db n a = some true →
      ∃ c ∈ db, ∀ m ∈ c, P m.negated := by
  intro n
  induction n with
  | zero => intro a _ h; simp [propagateF] at h
  | succ n ih =>
    intro a hj h
    have hs := sweep_sound hc (cs := db) (a := a) (ch := false) (fun c h => h) hj
    rw [propagateF] at h
    split at h
    · cases h
    · rename_i hsw; exact hs.1 hsw
    · rename_i a' hsw; exact ih (hs.2 _ _ hsw) h
    · cases h

theorem assume_sound {P : Lit → Prop} : ∀ {ls : List Lit} {a : PAssign}, Justified P a →
    (∀ l ∈ ls, P l) →
      (assume a ls = .clash → ∃ l, P l ∧ P l.negated) ∧ (∀ a', assume a ls = .ok a' → Justified P a') := by
  intro ls
  induction ls with
  | nil =>
    intro a hj _
    refine ⟨fun h => by simp [assume] at h, fun a' h => ?_⟩
    simp only [assume, Assume.ok.injEq] at h
    rw [← h]; exact hj
  | cons l ls ih =>
    intro a hj hP
    rw [assume]
    split
    · exact ⟨fun h => by simp at h, fun a' h => by simp at h⟩
    · rename_i hst
      refine ⟨fun _ => ⟨l, hP l List.mem_cons_self, hj _ (setTrue_clash hst)⟩, fun a' h => by simp at h⟩
    · rename_i a' hst
      exact ih (setTrue_justified hst hj (hP l List.mem_cons_self))
        (fun m hm => hP m (List.mem_cons_of_mem _ hm))

/-- General soundness of the core: for any justification of the assumptions closed under the unit
rule, an accepted run exhibits a conflict in the justification. -/
theorem upConflict_justified {P : Lit → Prop} {db : List Clause} {n : Nat} {ls : List Lit}
    (hc : UnitClosed db P) (hP : ∀ l ∈ ls, P l) (h : upConflict n db ls = some true) :
    (∃ c ∈ db, ∀ m ∈ c, P m.negated) ∨ ∃ l, P l ∧ P l.negated := by
  have hs := assume_sound (P := P) (ls := ls) (justified_empty P n) hP
  unfold upConflict at h
  split at h
  · cases h
  · rename_i he; exact Or.inr (hs.1 he)
  · rename_i a he
    exact Or.inl (propagateF_sound hc (hs.2 _ he) h)

theorem up_closed (db : List Clause) (as : List Lit) : UnitClosed db (UP db as) :=
  fun _ hc _ hl h => UP.unit hc hl h

theorem upConflict_sound_up {db : List Clause} {n : Nat} {ls : List Lit}
    (h : upConflict n db ls = some true) : UPConflict db ls :=
  upConflict_justified (up_closed db ls) (fun _ hl => UP.assumed hl) h

/-- Semantic soundness. -/
theorem upConflict_models {db : List Clause} {n : Nat} {ls : List Lit} {τ : Nat → Bool}
    (h : upConflict n db ls = some true) (hm : Models τ db) (hl : ∀ l ∈ ls, l.holds τ) : False := by
  have hc : UnitClosed db (fun l => l.holds τ) := by
    intro c hcd l hlc hall
    obtain ⟨m, hmc, hmh⟩ := hm c hcd
    by_cases e : m = l
    · rw [← e]; exact hmh
    · exact absurd hmh ((Lit.holds_negated τ m).mp (hall m hmc e))
  rcases upConflict_justified hc hl h with ⟨c, hcd, hall⟩ | ⟨l, h1, h2⟩
  · obtain ⟨m, hmc, hmh⟩ := hm c hcd
    exact absurd hmh ((Lit.holds_negated τ m).mp (hall m hmc))
  · exact absurd h1 ((Lit.holds_negated τ l).mp h2)

/-! ## Completeness -/

/-- How many variables are still unassigned. -/
def unsetCount (a : PAssign) : Nat := a.count none

theorem count_set_none {a : PAssign} {i : Nat} {b : Bool} (h : a[i]? = some none) :
    unsetCount (a.set i (some b)) + 1 = unsetCount a := by
  unfold unsetCount
  induction a generalizing i with
  | nil => simp at h
  | cons x xs ih =>
    cases i with
    | zero =>
      simp at h; subst h
      simp
    | succ i =>
      simp at h
      have := ih (i := i) (by simpa using h)
      rw [List.set_cons_succ, List.count_cons, List.count_cons]
      omega

theorem sweep_length : ∀ {cs : List Clause} {a a' : PAssign} {ch ch' : Bool},
    sweep a ch cs = .done a' ch' → a'.length = a.length := by
  intro cs
  induction cs with
  | nil => intro a a' ch ch' h; simp only [sweep, Sweep.done.injEq] at h; rw [h.1]
  | cons c cs ih =>
    intro a a' ch ch' h
    rw [sweep] at h
    split at h
    · cases h
    · exact ih h
    · cases h
    · split at h
      · cases h
      · rename_i hst
        rw [ih h, setTrue_length hst]
    · exact ih h

/-- A sweep that reports a change assigned something; one that does not left everything alone. -/
theorem sweep_progress : ∀ {cs : List Clause} {a a' : PAssign} {ch ch' : Bool},
    sweep a ch cs = .done a' ch' →
      unsetCount a' ≤ unsetCount a ∧ (ch = false → ch' = true → unsetCount a' < unsetCount a) ∧
      (ch = true → ch' = true) := by
  intro cs
  induction cs with
  | nil =>
    intro a a' ch ch' h
    simp only [sweep, Sweep.done.injEq] at h
    obtain ⟨rfl, rfl⟩ := h
    refine ⟨Nat.le_refl _, ?_, id⟩
    intro h1 h2; rw [h1] at h2; cases h2
  | cons c cs ih =>
    intro a a' ch ch' h
    rw [sweep] at h
    split at h
    · cases h
    · exact ih h
    · cases h
    · rename_i l hs
      have hlu := (scan_unset hs (by simp)).1 l (by simp)
      split at h
      · cases h
      · rename_i b a1 hst
        have e : a1 = a.set l.var (some l.pos) := by
          unfold setTrue at hst
          simp [hlu] at hst
          exact hst.2.symm
        have hk := count_set_none (b := l.pos) (litVal_none hlu)
        rw [← e] at hk
        obtain ⟨h1, _, h3⟩ := ih h
        exact ⟨by omega, fun _ _ => by omega, fun _ => h3 rfl⟩
    · exact ih h

/-- Every clause has a true literal or two distinct unassigned ones: nothing left to propagate. -/
def Stable (a : PAssign) (c : Clause) : Prop :=
  (∃ l ∈ c, litVal a l = some (some true)) ∨
    (∃ l ∈ c, ∃ m ∈ c, m ≠ l ∧ litVal a l = some none ∧ litVal a m = some none)

theorem sweep_stable : ∀ {cs : List Clause} {a a' : PAssign},
    sweep a false cs = .done a' false → a' = a ∧ ∀ c ∈ cs, Stable a c := by
  intro cs
  induction cs with
  | nil =>
    intro a a' h
    simp only [sweep, Sweep.done.injEq] at h
    exact ⟨h.1.symm, by simp⟩
  | cons c cs ih =>
    intro a a' h
    rw [sweep] at h
    split at h
    · cases h
    · rename_i hs
      obtain ⟨h1, h2⟩ := ih h
      refine ⟨h1, ?_⟩
      intro d hd
      rcases List.mem_cons.mp hd with rfl | hd
      · rcases scan_satisfied hs (by simp) with h | ⟨l, hl, m, hm, hne, h⟩
        · exact Or.inl h
        · refine Or.inr ⟨l, hl, m, ?_, hne, h⟩
          rcases hm with hm | hm
          · simp at hm
          · exact hm
      · exact h2 d hd
    · cases h
    · split at h
      · cases h
      · have := (sweep_progress h).2.2 rfl
        cases this
    · rename_i x y zs hs
      obtain ⟨h1, h2⟩ := ih h
      refine ⟨h1, ?_⟩
      intro d hd
      rcases List.mem_cons.mp hd with rfl | hd
      · obtain ⟨k1, _, k3, _, k5⟩ := scan_unset hs (by simp)
        have hx : x ∈ d := (k3 x (by simp)).resolve_left (by simp)
        have hy : y ∈ d := (k3 y (by simp)).resolve_left (by simp)
        have hne : y ≠ x := by
          have := k5 (by simp)
          rw [List.nodup_cons] at this
          rintro rfl
          exact this.1 (by simp)
        exact Or.inr ⟨x, hx, y, hy, hne, k1 x (by simp), k1 y (by simp)⟩
      · exact h2 d hd

theorem sweep_panic : ∀ {cs : List Clause} {a : PAssign} {ch : Bool},
    sweep a ch cs = .panic → ∃ c ∈ cs, ∃ l ∈ c, a.length ≤ l.var := by
  intro cs
  induction cs with
  | nil => intro a ch h; simp [sweep] at h
  | cons c cs ih =>
    intro a ch h
    rw [sweep] at h
    split at h
    · rename_i hs
      exact ⟨c, List.mem_cons_self, scan_panic hs⟩
    · obtain ⟨d, hd, hx⟩ := ih h; exact ⟨d, List.mem_cons_of_mem _ hd, hx⟩
    · cases h
    · rename_i l hs
      split at h
      · rename_i hst
        have hlu := (scan_unset hs (by simp)).1 l (by simp)
        unfold setTrue at hst
        simp [hlu] at hst
      · rename_i hst
        obtain ⟨d, hd, x, hx, hle⟩ := ih h
        rw [setTrue_length hst] at hle
        exact ⟨d, List.mem_cons_of_mem _ hd, x, hx, hle⟩
    · obtain ⟨d, hd, hx⟩ := ih h; exact ⟨d, List.mem_cons_of_mem _ hd, hx⟩

theorem setTrue_mono {a a' : PAssign} {l m : Lit} {b b' : Bool} (h : setTrue a l = some (b, a'))
    (hm : litVal a m = some (some b')) : litVal a' m = some (some b') := by
  unfold setTrue at h
  split at h
  · cases h
  · simp at h; rw [← h.2]; exact hm
  · simp at h; rw [← h.2]; exact hm
  · rename_i hn
    simp at h
    rw [← h.2, litVal_set hn]
    have h1 : m ≠ l := by rintro rfl; rw [hn] at hm; simp at hm
    have h2 : m ≠ l.negated := by
      rintro rfl; rw [litVal_none_negated hn] at hm; simp at hm
    simp [h1, h2, hm]

theorem sweep_mono : ∀ {cs : List Clause} {a a' : PAssign} {ch ch' : Bool} {m : Lit} {b : Bool},
    sweep a ch cs = .done a' ch' → litVal a m = some (some b) → litVal a' m = some (some b) := by
  intro cs
  induction cs with
  | nil =>
    intro a a' ch ch' m b h hm
    simp only [sweep, Sweep.done.injEq] at h
    rw [← h.1]; exact hm
  | cons c cs ih =>
    intro a a' ch ch' m b h hm
    rw [sweep] at h
    split at h
    · cases h
    · exact ih h hm
    · cases h
    · split at h
      · cases h
      · rename_i hst
        exact ih h (setTrue_mono hst hm)
    · exact ih h hm

/-- With a budget above the number of unassigned variables, a run that does not end in a conflict
ends in a stable assignment extending the initial one. -/
theorem propagateF_complete {db : List Clause} : ∀ {n : Nat} {a : PAssign}, unsetCount a < n →
    (∀ c ∈ db, InRange a.length c) →
    propagateF db n a = some true ∨
      (propagateF db n a = some false ∧
      ∃ a', (∀ c ∈ db, Stable a' c) ∧
        ∀ m b, litVal a m = some (some b) → litVal a' m = some (some b)) := by
  intro n
  induction n with
  | zero => intro a h; omega
  | succ n ih =>
    intro a hn hr
    rw [propagateF]
    split
    · rename_i hs
      obtain ⟨c, hc, l, hl, hle⟩ := sweep_panic hs
      have := hr c hc l hl
      omega
    · exact Or.inl rfl
    · rename_i a' hs
      have hp := (sweep_progress hs).2.1 rfl rfl
      rcases ih (a := a') (by omega) (by rw [sweep_length hs]; exact hr) with h | ⟨h0, a2, h1, h2⟩
      · exact Or.inl h
      · exact Or.inr ⟨h0, a2, h1, fun m b hm => h2 m b (sweep_mono hs hm)⟩
    · rename_i a' hs
      obtain ⟨rfl, h⟩ := sweep_stable hs
      exact Or.inr ⟨rfl, a', h, fun m b hm => hm⟩

theorem stable_up {db : List Clause} {as : List Lit} {a : PAssign}
    (hs : ∀ c ∈ db, Stable a c) (ha : ∀ l ∈ as, litVal a l = some (some true)) {l : Lit}
    (h : UP db as l) : litVal a l = some (some true) := by
  induction h with
  | assumed h => exact ha _ h
  | @unit c l hc hl _ ih =>
    have hfalse : ∀ m ∈ c, m ≠ l → litVal a m = some (some false) := by
      intro m hm hne
      have := litVal_negated (ih m hm hne)
      rwa [Lit.negated_negated] at this
    rcases hs c hc with ⟨m, hm, ht⟩ | ⟨x, hx, y, hy, hne, hx0, hy0⟩
    · by_cases e : m = l
      · rw [← e]; exact ht
      · rw [hfalse m hm e] at ht; simp at ht
    · by_cases e : x = l
      · have : y ≠ l := by rw [← e]; exact hne
        rw [hfalse y hy this] at hy0; simp at hy0
      · rw [hfalse x hx e] at hx0; simp at hx0

theorem stable_no_conflict {db : List Clause} {as : List Lit} {a : PAssign}
    (hs : ∀ c ∈ db, Stable a c) (ha : ∀ l ∈ as, litVal a l = some (some true)) :
    ¬ UPConflict db as := by
  rintro (⟨c, hc, hall⟩ | ⟨l, h1, h2⟩)
  · have hfalse : ∀ m ∈ c, litVal a m = some (some false) := by
      intro m hm
      have := litVal_negated (stable_up hs ha (hall m hm))
      rwa [Lit.negated_negated] at this
    rcases hs c hc with ⟨m, hm, ht⟩ | ⟨x, hx, y, hy, hne, hx0, hy0⟩
    · rw [hfalse m hm] at ht; simp at ht
    · rw [hfalse x hx] at hx0; simp at hx0
  · have := litVal_negated (stable_up hs ha h1)
    rw [stable_up hs ha h2] at this
    simp at this

theorem assume_ok : ∀ {ls : List Lit} {a a' : PAssign}, assume a ls = .ok a' →
    a'.length = a.length ∧ (∀ l ∈ ls, litVal a' l = some (some true)) ∧
      ∀ m b, litVal a m = some (some b) → litVal a' m = some (some b) := by
  intro ls
  induction ls with
  | nil =>
    intro a a' h
    simp only [assume, Assume.ok.injEq] at h
    rw [← h]; simp
  | cons l ls ih =>
    intro a a' h
    rw [assume] at h
    split at h
    · cases h
    · cases h
    · rename_i a1 hst
      obtain ⟨h1, h2, h3⟩ := ih h
      refine ⟨by rw [h1, setTrue_length hst], ?_, fun m b hm => h3 m b (setTrue_mono hst hm)⟩
      intro m hm
      rcases List.mem_cons.mp hm with rfl | hm
      · apply h3
        unfold setTrue at hst
        split at hst
        · cases hst
        · rename_i ht; simp at hst; rw [← hst]; exact ht
        · simp at hst
        · rename_i hn
          simp at hst
          rw [← hst, litVal_set hn]; simp
      · exact h2 m hm

theorem assume_panic : ∀ {ls : List Lit} {a : PAssign}, assume a ls = .panic →
    ∃ l ∈ ls, a.length ≤ l.var := by
  intro ls
  induction ls with
  | nil => intro a h; simp [assume] at h
  | cons l ls ih =>
    intro a h
    rw [assume] at h
    split at h
    · rename_i hst
      refine ⟨l, List.mem_cons_self, ?_⟩
      unfold setTrue at hst
      split at hst
      · rename_i hp; exact litVal_panic.mp hp
      all_goals simp at hst
    · cases h
    · rename_i hst
      obtain ⟨m, hm, hx⟩ := ih h
      rw [setTrue_length hst] at hx
      exact ⟨m, List.mem_cons_of_mem _ hm, hx⟩

/-- The core decides exactly whether unit propagation reaches a conflict. -/
theorem upConflict_iff {db : List Clause} {n : Nat} {ls : List Lit}
    (hr : ∀ c ∈ db, InRange n c) (hl : InRange n ls) :
    (upConflict n db ls = some true ∧ UPConflict db ls) ∨
      (upConflict n db ls = some false ∧ ¬ UPConflict db ls) := by
  cases hu : upConflict n db ls with
  | none =>
    exfalso
    unfold upConflict at hu
    split at hu
    · rename_i h
      obtain ⟨l, hm, hx⟩ := assume_panic h
      have := hl l hm
      rw [List.length_replicate] at hx
      omega
    · cases hu
    · rename_i a h
      have hlen := (assume_ok h).1
      rw [List.length_replicate] at hlen
      have := propagateF_complete (db := db) (n := a.length + 1) (a := a)
        (by have : unsetCount a ≤ a.length := List.count_le_length; omega) (by rw [hlen]; exact hr)
      unfold propagate at hu
      rcases this with h | ⟨h, _⟩ <;> rw [h] at hu <;> cases hu
  | some b =>
    cases b with
    | true => exact Or.inl ⟨rfl, upConflict_sound_up hu⟩
    | false =>
      refine Or.inr ⟨rfl, ?_⟩
      unfold upConflict at hu
      split at hu
      · cases hu
      · cases hu
      · rename_i a h
        obtain ⟨hlen, h2, _⟩ := assume_ok h
        rw [List.length_replicate] at hlen
        rcases propagateF_complete (db := db) (n := a.length + 1) (a := a)
          (by have : unsetCount a ≤ a.length := List.count_le_length; omega)
          (by rw [hlen]; exact hr) with h | ⟨_, a', h4, h5⟩
        · unfold propagate at hu
          rw [h] at hu; cases hu
        · exact stable_no_conflict h4 (fun l hl => h5 _ _ (h2 l hl))

end Verif.Proof
