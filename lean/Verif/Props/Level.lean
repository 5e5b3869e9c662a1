import Verif.Kernel.LevelLemmas
/-!
# C78: universe levels

Specification (`Kernel/Level.lean`): `rank`, the place of a universe in the hierarchy
`SProp < Prop < Type 0 < Type 1 < …` for given places of its variables.  `Plain` excludes variables whose
name ends in the reserved `✦`, `Proper` says that `SProp` is not a part of a larger universe.
-/
namespace Verif.Props
open Verif.Level Verif.Level.Universe

theorem rank_nonneg {ν : String → Nat} {u : Universe} (h : NoSProp u) : 0 ≤ u.rank ν := by
  induction u with
  | sprop => cases h
  | prop => exact Int.le_refl 0
  | type n => simp only [rank]; omega
  | var v => simp only [rank]; omega
  | succ l _ => simp only [rank]; omega
  | max a b i1 i2 => have := i1 h.1; have := i2 h.2; simp only [rank]; omega
  | imax a b i1 i2 => have := i1 h.1; have := i2 h.2; simp only [rank]; split <;> omega

theorem neg_one_le_rank (ν : String → Nat) (u : Universe) : -1 ≤ u.rank ν := by
  induction u with
  | sprop => simp [rank]
  | prop => simp [rank]
  | type n => simp only [rank]; omega
  | var v => simp only [rank]; omega
  | succ l _ => simp only [rank]; omega
  | max a b i1 i2 => simp only [rank]; omega
  | imax a b i1 i2 => simp only [rank]; split <;> omega

theorem toLnat_val {u : Universe} (h : NoSProp u) (ν : String → Nat) :
    ((toLnat u).val ν : Int) = u.rank ν := by
  induction u with
  | sprop => cases h
  | prop => rfl
  | type n => simp [toLnat, LNat.val, rank]
  | var v => rfl
  | succ l ih =>
    have := rank_nonneg (ν := ν) (u := l) h
    have := ih h
    simp only [toLnat, LNat.val, rank]; omega
  | max a b i1 i2 =>
    have := i1 h.1; have := i2 h.2
    simp only [toLnat, LNat.val, rank]; omega
  | imax a b i1 i2 =>
    have h1 := i1 h.1; have h2 := i2 h.2
    have := rank_nonneg (ν := ν) h.2
    simp only [toLnat, LNat.val, rank]
    split <;> split <;> omega

theorem toLnat_names (u : Universe) : (toLnat u).names = u.names := by
  induction u with
  | sprop => rfl
  | prop => rfl
  | type n => rfl
  | var v => rfl
  | succ l ih => exact ih
  | max a b i1 i2 => simp only [toLnat, LNat.names, names, i1, i2]
  | imax a b i1 i2 => simp only [toLnat, LNat.names, names, i1, i2]

theorem fresh_of_plain {a b : Universe} (ha : Plain a) (hb : Plain b) :
    Fresh (simp (toLnat a)) (simp (toLnat b)) := by
  intro x _ y hy
  rcases hy with hy | hy
  · exact ha y (by rw [← toLnat_names]; exact simp_names hy) x
  · exact hb y (by rw [← toLnat_names]; exact simp_names hy) x

theorem leq?_spec {a b : Universe} (ha : Plain a) (hb : Plain b) (pa : Proper a) (pb : Proper b) :
    ∃ r, leq? a b = some r ∧ (r = true ↔ ∀ ν, a.rank ν ≤ b.rank ν) := by
  by_cases ea : a = .sprop
  · subst ea
    exact ⟨true, by simp [leq?], by simp [rank, neg_one_le_rank]⟩
  have na := pa.resolve_left ea
  by_cases eb : b = .sprop
  · subst eb
    refine ⟨false, by cases a <;> simp_all [leq?], ?_⟩
    have := rank_nonneg (ν := fun _ => 0) na
    simp only [Bool.false_eq_true, false_iff, not_forall]
    exact ⟨fun _ => 0, by simp only [rank]; omega⟩
  have nb := pb.resolve_left eb
  have e : leq? a b = lnatLeq (simp (toLnat a)) (simp (toLnat b)) := by
    cases a <;> cases b <;> first | rfl | exact absurd rfl ea | exact absurd rfl eb
  obtain ⟨r, hr, h⟩ := leqAux_spec _ (Nat.le_refl _) (simp_simplified (toLnat a)) (simp_simplified (toLnat b))
    (fresh_of_plain ha hb)
  refine ⟨r, e.trans hr, h.trans (forall_congr' fun ν => ?_)⟩
  rw [simp_val, simp_val, ← toLnat_val na, ← toLnat_val nb]
  omega

/-- The subtyping test is exact: it says yes if and only if the first universe is below or equal to the
second whatever the variables stand for. -/
theorem C78_subtype {a b : Universe} (ha : Plain a) (hb : Plain b) (pa : Proper a) (pb : Proper b) :
    a.isSubtypeOf b = true ↔ ∀ ν, a.rank ν ≤ b.rank ν := by
  obtain ⟨r, hr, h⟩ := leq?_spec ha hb pa pb
  simp only [isSubtypeOf, hr, Option.getD_some]
  exact h

/-- The test of equivalence is exact. -/
theorem C78_equiv {a b : Universe} (ha : Plain a) (hb : Plain b) (pa : Proper a) (pb : Proper b) :
    a.equiv b = true ↔ ∀ ν, a.rank ν = b.rank ν := by
  simp only [equiv, Bool.and_eq_true, C78_subtype ha hb pa pb, C78_subtype hb ha pb pa]
  exact ⟨fun h ν => le_antisymm (h.1 ν) (h.2 ν), fun h => ⟨fun ν => (h ν).le, fun ν => (h ν).ge⟩⟩

/-- The test never reaches its `unreachable!` and always ends: its recursion satisfies the equation of the
code, which carries no bound on the depth. -/
theorem C78_total {a b : Universe} (ha : Plain a) (hb : Plain b) :
    (∃ r, lnatLeq (simp (toLnat a)) (simp (toLnat b)) = some r) ∧
      ∀ x y, Simplified x → Simplified y → Fresh x y →
        lnatLeq x y = match (pivot x).or (pivot y) with
          | none => leqLinear x y
          | some v =>
            both (lnatLeq (simp (substL v (.const 0) x)) (simp (substL v (.const 0) y)))
              (lnatLeq (simp (substL v (above v) x)) (simp (substL v (above v) y))) :=
  ⟨(leq_equation (simp_simplified _) (simp_simplified _) (fresh_of_plain ha hb)).1,
    fun _ _ hx hy hf => (leq_equation hx hy hf).2⟩

/-! ### The operations -/

/-- The maximum is the maximum. -/
theorem C78_max {a b : Universe} (pa : Proper a) (pb : Proper b) (ν : String → Nat) :
    (mkMax a b).rank ν = Max.max (a.rank ν) (b.rank ν) := by
  have ha := neg_one_le_rank ν a
  have hb := neg_one_le_rank ν b
  unfold mkMax
  split
  · rename_i e; subst e; simp only [rank]; omega
  split
  · rename_i e; subst e; simp only [rank]; omega
  rename_i ea eb
  have ha := rank_nonneg (ν := ν) (pa.resolve_left ea)
  have hb := rank_nonneg (ν := ν) (pb.resolve_left eb)
  split
  · rename_i e; subst e; simp only [rank]; omega
  split
  · rename_i e; subst e; simp only [rank]; omega
  split
  · simp only [rank, Nat.max_def]; split <;> omega
  · rfl

/-- The impredicative maximum is the second universe where that is a proposition, and the maximum
elsewhere. -/
theorem C78_imax {a b : Universe} (ha : Plain a) (hb : Plain b) (pa : Proper a) (pb : Proper b)
    (ν : String → Nat) :
    (mkIMax a b).rank ν = if b.rank ν ≤ 0 then b.rank ν else Max.max (a.rank ν) (b.rank ν) := by
  have key : ∀ c : Universe, Plain c → Proper c → (imaxSymbolic a c).rank ν =
      if c.rank ν ≤ 0 then c.rank ν else Max.max (a.rank ν) (c.rank ν) := by
    intro c hc pc
    unfold imaxSymbolic
    split
    · rename_i e
      have := (C78_equiv ha hc pa pc).1 e ν
      split <;> omega
    · rfl
  cases b with
  | sprop => simp [mkIMax, rank]
  | prop => simp [mkIMax, rank]
  | type n =>
    rw [mkIMax, C78_max pa pb, if_neg]
    simp only [rank]; omega
  | succ l =>
    rw [mkIMax, C78_max pa pb, if_neg]
    simp only [rank]; omega
  | var v => exact key _ hb pb
  | max x y => exact key _ hb pb
  | imax x y => exact key _ hb pb

/-- The universe a universe belongs to is above it (`Type n : Type (n+1)`, `Prop : Type 1`); so none is
accepted as a member of itself or of a smaller one. -/
theorem C78_succ_partial {u : Universe} (h : u.top + 1 < 2 ^ 32) :
    (∀ ν, u.rank ν < (mkSucc u).rank ν) ∧
      (Plain u → Proper u → (mkSucc u).isSubtypeOf u = false) := by
  have hlt : ∀ ν, u.rank ν < (mkSucc u).rank ν := by
    intro ν
    cases u with
    | sprop => simp [mkSucc, rank]
    | prop => simp [mkSucc, rank]
    | type n =>
      simp only [top] at h
      simp only [mkSucc, rank, Nat.mod_eq_of_lt h]; omega
    | _ => simp only [mkSucc, rank]; omega
  refine ⟨hlt, fun hp pp => ?_⟩
  have hn : (mkSucc u).names = u.names := by cases u <;> rfl
  have hs : Proper (mkSucc u) := by
    rcases pp with rfl | pp
    · exact .inr trivial
    · cases u <;> first | exact .inr trivial | exact .inr pp | cases pp
  cases e : (mkSucc u).isSubtypeOf u with
  | false => rfl
  | true =>
    have := (C78_subtype (fun v hv => hp v (hn ▸ hv)) hp hs pp).1 e (fun _ => 0)
    have := hlt (fun _ => 0)
    omega

/-- **Disagreement.**  In a release build the last universe belongs to the first:
`Type 4294967295 : Type 0`. -/
theorem C78_overflow_fails :
    (mkSucc (.type (2 ^ 32 - 1))).isSubtypeOf (.type (2 ^ 32 - 1)) = true ∧
      ¬ ∀ ν, (Universe.type (2 ^ 32 - 1)).rank ν < (mkSucc (.type (2 ^ 32 - 1))).rank ν := by
  refine ⟨by decide +kernel, fun h => ?_⟩
  have := h fun _ => 0
  simp [mkSucc, rank] at this

/-- **Disagreement.**  A variable named like the one the procedure makes up is taken for it:
`imax u u ≤ u✦ + 1` is accepted, and false for `u = 2`, `u✦ = 0`. -/
theorem C78_capture_fails :
    (Universe.imax (.var "u") (.var "u")).isSubtypeOf (.succ (.var "u✦")) = true ∧
      ¬ ∀ ν, (Universe.imax (.var "u") (.var "u")).rank ν ≤ (Universe.succ (.var "u✦")).rank ν := by
  refine ⟨by decide +kernel, fun h => ?_⟩
  have := h fun v => if v = "u" then 2 else 0
  simp [rank] at this

/-! ### Instantiation -/

theorem composite_noSProp {u : Universe} (h : Composite u) : NoSProp u := by
  induction h with
  | type n => trivial
  | var v => trivial
  | succ _ ih => exact ih
  | max _ _ i1 i2 => exact ⟨i1, i2⟩
  | imax _ _ i1 i2 => exact ⟨i1, i2⟩
  | imaxProp _ i => exact ⟨trivial, i⟩

/-- A composite universe is no proposition when its variables are none. -/
theorem composite_pos {u : Universe} (h : Composite u) : 1 ≤ u.rank (fun _ => 1) := by
  induction h with
  | type n => simp only [rank]; omega
  | var v => simp [rank]
  | succ _ ih => simp only [rank]; omega
  | max _ _ i1 i2 => simp only [rank]; omega
  | imax _ _ i1 i2 => simp only [rank]; split <;> omega
  | imaxProp _ i => simp only [rank]; split <;> omega

theorem composite_ne {u : Universe} (h : Composite u) : u ≠ .prop ∧ u ≠ .sprop := by
  cases h <;> simp

theorem mkSucc_composite {u : Universe} (h : Composite u) : Composite (mkSucc u) := by
  cases h with
  | type n => exact .type _
  | var v => exact .succ (.var v)
  | succ h => exact .succ (.succ h)
  | max h1 h2 => exact .succ (.max h1 h2)
  | imax h1 h2 => exact .succ (.imax h1 h2)
  | imaxProp h => exact .succ (.imaxProp h)

theorem mkMax_composite {a b : Universe} (ha : Composite a) (hb : Composite b) : Composite (mkMax a b) := by
  obtain ⟨a1, a2⟩ := composite_ne ha
  obtain ⟨b1, b2⟩ := composite_ne hb
  unfold mkMax
  rw [if_neg a2, if_neg b2, if_neg a1, if_neg b1]
  split
  · exact .type _
  · exact .max ha hb

theorem imaxSymbolic_names {a b : Universe} {v : String} (h : v ∈ (imaxSymbolic a b).names) :
    v ∈ a.names ∨ v ∈ b.names := by
  unfold imaxSymbolic at h
  split at h
  · exact .inl h
  · simpa [names] using h

theorem mkMax_names {a b : Universe} {v : String} (h : v ∈ (mkMax a b).names) :
    v ∈ a.names ∨ v ∈ b.names := by
  unfold mkMax at h
  split_ifs at h
  · exact .inr h
  · exact .inl h
  · exact .inr h
  · exact .inl h
  · split at h
    · simp [names] at h
    · simpa [names] using h

theorem mkIMax_names {a b : Universe} {v : String} (h : v ∈ (mkIMax a b).names) :
    v ∈ a.names ∨ v ∈ b.names := by
  cases b with
  | sprop => simp [mkIMax, names] at h
  | prop => simp [mkIMax, names] at h
  | type n => exact mkMax_names h
  | succ l => exact mkMax_names h
  | _ => exact imaxSymbolic_names h

theorem mkIMax_composite {a b : Universe} (pa : Plain a) (pb : Plain b) (ha : a = .prop ∨ Composite a)
    (hb : Composite b) : Composite (mkIMax a b) := by
  have pra : Proper a := by
    rcases ha with rfl | ha
    · exact .inr trivial
    · exact .inr (composite_noSProp ha)
  have key : Composite (imaxSymbolic a b) := by
    unfold imaxSymbolic
    split
    · rename_i e
      rcases ha with rfl | ha
      · have := (C78_equiv pa pb pra (.inr (composite_noSProp hb))).1 e fun _ => 1
        have := composite_pos hb
        simp only [rank] at *
        omega
      · exact ha
    · rcases ha with rfl | ha
      · exact .imaxProp hb
      · exact .imax ha hb
  have hmax : Composite (mkMax a b) := by
    rcases ha with rfl | ha
    · obtain ⟨b1, b2⟩ := composite_ne hb
      simp only [mkMax]
      simpa [b2] using hb
    · exact mkMax_composite ha hb
  cases b with
  | sprop => cases hb
  | prop => cases hb
  | type n => exact hmax
  | succ l => exact hmax
  | _ => exact key

theorem mkSucc_rank {u : Universe} (h : Composite u) (ht : u.top + 1 < 2 ^ 32) (ν : String → Nat) :
    (mkSucc u).rank ν = Max.max 0 (u.rank ν) + 1 := by
  cases h with
  | type n =>
    simp only [top] at ht
    simp only [mkSucc, rank, Nat.mod_eq_of_lt ht]; omega
  | _ => rfl

theorem mkSucc_top {u : Universe} (h : Composite u) : (mkSucc u).top ≤ u.top + 1 := by
  cases h with
  | type n => exact Nat.mod_le _ _
  | _ => exact Nat.le_refl _

theorem mkMax_top (a b : Universe) : (mkMax a b).top ≤ Nat.max a.top b.top := by
  unfold mkMax
  split_ifs
  · exact Nat.le_max_right _ _
  · exact Nat.le_max_left _ _
  · exact Nat.le_max_right _ _
  · exact Nat.le_max_left _ _
  · split <;> exact Nat.le_refl _

theorem imaxSymbolic_top (a b : Universe) : (imaxSymbolic a b).top ≤ Nat.max a.top b.top := by
  unfold imaxSymbolic
  split
  · exact Nat.le_max_left _ _
  · exact Nat.le_refl _

theorem mkIMax_top (a b : Universe) : (mkIMax a b).top ≤ Nat.max a.top b.top := by
  cases b with
  | sprop => exact Nat.zero_le _
  | prop => exact Nat.zero_le _
  | type n => exact mkMax_top _ _
  | succ l => exact mkMax_top _ _
  | _ => exact imaxSymbolic_top _ _

/-- The value of a variable after instantiation. -/
def instantiated (σ : String → Option Universe) (ν : String → Nat) (v : String) : Nat :=
  match σ v with
  | some u => (u.rank ν).toNat
  | none => ν v

/-- The instantiation gives variables composite universes with small numbers and plain names. -/
structure Modest (σ : String → Option Universe) (k : Nat) : Prop where
  composite : ∀ v u, σ v = some u → Composite u
  plain : ∀ v u, σ v = some u → Plain u
  small : ∀ v u, σ v = some u → u.top ≤ k

theorem substitute_spec {σ : String → Option Universe} {k : Nat} (hσ : Modest σ k) {u : Universe}
    (hu : Composite u) (hp : Plain u) (ht : u.top + k < 2 ^ 32) :
    Composite (u.substitute σ) ∧ Plain (u.substitute σ) ∧ (u.substitute σ).top ≤ u.top + k ∧
      ∀ ν, (u.substitute σ).rank ν = u.rank (instantiated σ ν) := by
  induction hu with
  | type n => exact ⟨.type n, by simp [Plain, substitute, names], by simp [substitute, top], fun ν => rfl⟩
  | var v =>
    cases e : σ v with
    | none =>
      simp only [substitute, e, Option.getD_none]
      exact ⟨.var v, hp, Nat.zero_le _, fun ν => by simp [rank, instantiated, e]⟩
    | some u =>
      simp only [substitute, e, Option.getD_some]
      refine ⟨hσ.composite v u e, hσ.plain v u e, by have := hσ.small v u e; omega, fun ν => ?_⟩
      have := rank_nonneg (ν := ν) (composite_noSProp (hσ.composite v u e))
      simp only [rank, instantiated, e]; omega
  | succ h ih =>
    rename_i l
    simp only [top] at ht
    obtain ⟨h1, h2, h3, h4⟩ := ih hp (by omega)
    refine ⟨mkSucc_composite h1, ?_, (mkSucc_top h1).trans ?_, fun ν => ?_⟩
    · intro v hv
      have hn : (mkSucc (l.substitute σ)).names = (l.substitute σ).names := by
        generalize l.substitute σ = w; cases w <;> rfl
      exact h2 v (hn ▸ hv)
    · simp only [top]; omega
    · simp only [substitute, rank, mkSucc_rank h1 (by omega), h4]
  | max ha hb i1 i2 =>
    rename_i a b
    simp only [top] at ht
    have l1 : a.top ≤ Nat.max a.top b.top := Nat.le_max_left a.top b.top
    have l2 : b.top ≤ Nat.max a.top b.top := Nat.le_max_right a.top b.top
    obtain ⟨a1, a2, a3, a4⟩ := i1 (fun v hv => hp v (by simp [names, hv])) (by omega)
    obtain ⟨b1, b2, b3, b4⟩ := i2 (fun v hv => hp v (by simp [names, hv])) (by omega)
    refine ⟨mkMax_composite a1 b1, ?_, (mkMax_top _ _).trans ?_, fun ν => ?_⟩
    · intro v hv
      rcases mkMax_names hv with h | h
      · exact a2 v h
      · exact b2 v h
    · exact Nat.max_le.2 ⟨by simp only [top]; omega, by simp only [top]; omega⟩
    · simp only [substitute, rank, C78_max (.inr (composite_noSProp a1)) (.inr (composite_noSProp b1)),
        a4, b4]
  | imax ha hb i1 i2 =>
    rename_i a b
    simp only [top] at ht
    have l1 : a.top ≤ Nat.max a.top b.top := Nat.le_max_left a.top b.top
    have l2 : b.top ≤ Nat.max a.top b.top := Nat.le_max_right a.top b.top
    obtain ⟨a1, a2, a3, a4⟩ := i1 (fun v hv => hp v (by simp [names, hv])) (by omega)
    obtain ⟨b1, b2, b3, b4⟩ := i2 (fun v hv => hp v (by simp [names, hv])) (by omega)
    refine ⟨mkIMax_composite a2 b2 (.inr a1) b1, ?_, (mkIMax_top _ _).trans ?_, fun ν => ?_⟩
    · intro v hv
      rcases mkIMax_names hv with h | h
      · exact a2 v h
      · exact b2 v h
    · exact Nat.max_le.2 ⟨by simp only [top]; omega, by simp only [top]; omega⟩
    · simp only [substitute, rank,
        C78_imax a2 b2 (.inr (composite_noSProp a1)) (.inr (composite_noSProp b1)), a4, b4]
  | imaxProp hb i2 =>
    rename_i b
    simp only [top] at ht
    have l2 : b.top ≤ Nat.max 0 b.top := Nat.le_max_right 0 b.top
    obtain ⟨b1, b2, b3, b4⟩ := i2 (fun v hv => hp v (by simp [names, hv])) (by omega)
    have pp : Plain .prop := by simp [Plain, names]
    refine ⟨mkIMax_composite pp b2 (.inl rfl) b1, ?_, (mkIMax_top _ _).trans ?_, fun ν => ?_⟩
    · intro v hv
      rcases mkIMax_names hv with h | h
      · exact absurd h List.not_mem_nil
      · exact b2 v h
    · exact Nat.max_le.2 ⟨Nat.zero_le _, by simp only [top]; omega⟩
    · simp only [substitute, rank,
        C78_imax pp b2 (.inr trivial) (.inr (composite_noSProp b1)), b4]

/-- What was accepted for variables is accepted for every instance, when the variables are instantiated
with anything but `SProp` and `Prop`.  **Missing:** these two, for which it is false
(`C78_instantiate_fails`). -/
theorem C78_instantiate_partial {σ : String → Option Universe} {k : Nat} (hσ : Modest σ k) {a b : Universe}
    (ha : Composite a) (hb : Composite b) (pa : Plain a) (pb : Plain b) (ta : a.top + k < 2 ^ 32)
    (tb : b.top + k < 2 ^ 32) (h : a.isSubtypeOf b = true) :
    (a.substitute σ).isSubtypeOf (b.substitute σ) = true := by
  obtain ⟨a1, a2, -, a4⟩ := substitute_spec hσ ha pa ta
  obtain ⟨b1, b2, -, b4⟩ := substitute_spec hσ hb pb tb
  rw [C78_subtype a2 b2 (.inr (composite_noSProp a1)) (.inr (composite_noSProp b1))]
  intro ν
  rw [a4, b4]
  exact (C78_subtype pa pb (.inr (composite_noSProp ha)) (.inr (composite_noSProp hb))).1 h _

/-- The instance has the rank of the original, for the ranks of what replaces the variables. -/
theorem C78_instance_rank_partial {σ : String → Option Universe} {k : Nat} (hσ : Modest σ k) {u : Universe}
    (hu : Composite u) (hp : Plain u) (ht : u.top + k < 2 ^ 32) (ν : String → Nat) :
    (u.substitute σ).rank ν =
      u.rank (fun v => match σ v with | some w => (w.rank ν).toNat | none => ν v) :=
  (substitute_spec hσ hu hp ht).2.2.2 ν

/-- **Disagreement.**  Subtyping is not stable under instantiation.  `u + 1 ≤ max u v + 1` is accepted;
with `u := Prop` the left side becomes `Type 1` and the right side `v + 1`, and the test says no.
`Prop ≤ u` is accepted; with `u := SProp` the test says no. -/
theorem C78_instantiate_fails :
    (∃ σ : String → Option Universe, σ "u" = some .prop ∧
      (Universe.succ (.var "u")).isSubtypeOf (.succ (.max (.var "u") (.var "v"))) = true ∧
      ((Universe.succ (.var "u")).substitute σ).isSubtypeOf
        ((Universe.succ (.max (.var "u") (.var "v"))).substitute σ) = false) ∧
    (∃ σ : String → Option Universe, σ "u" = some .sprop ∧
      Universe.prop.isSubtypeOf (.var "u") = true ∧
      (Universe.prop.substitute σ).isSubtypeOf ((Universe.var "u").substitute σ) = false) :=
  ⟨⟨fun v => if v = "u" then some .prop else none, by simp, by decide +kernel, by decide +kernel⟩,
    ⟨fun v => if v = "u" then some .sprop else none, by simp, by decide +kernel, by decide +kernel⟩⟩

/-! ### The hypotheses can be met -/

example : Plain (.imax (.max (.var "u") (.type 3)) (.var "v")) := by
  intro v hv w e
  simp only [names, List.append_nil, List.cons_append, List.nil_append, List.mem_cons, List.not_mem_nil,
    or_false] at hv
  have := congrArg (fun s => s.toList.getLast?) e
  rcases hv with rfl | rfl <;> simp at this

example : (Universe.imax (.var "u") (.var "v")).isSubtypeOf (.max (.var "v") (.var "u")) = true := by
  decide +kernel

example : (Universe.max (.var "v") (.var "u")).isSubtypeOf (.imax (.var "u") (.var "v")) = false := by
  decide +kernel

example : (Universe.imax (.var "u") (.imax (.var "v") (.var "u"))).equiv (.imax (.var "v") (.var "u")) = true := by
  decide +kernel

example : Modest (fun v => if v = "u" then some (.max (.var "w") (.type 2)) else none) 2 := by
  constructor <;> intro v u h <;> split at h <;> simp only [Option.some.injEq, reduceCtorEq] at h <;>
    subst h
  · exact .max (.var _) (.type _)
  · intro v hv w e
    simp only [names, List.append_nil, List.mem_cons, List.not_mem_nil, or_false] at hv
    have := congrArg (fun s => s.toList.getLast?) e
    subst hv; simp at this
  · decide

end Verif.Props
