import Verif.Proof.Unify
import Verif.Proof.UnifySpec
import Mathlib.Data.List.Forall2
import Mathlib.Tactic.Tauto
/-!
# Lemmas on unification

`inst θ` is the simultaneous replacement of every variable, free or bound, by `θ`; `res σ` is one
pass of a resolved (idempotent) substitution.
-/

namespace Verif.Proof

/-- Induction on terms. -/
theorem Term.ind {P : Term → Prop} (hc : ∀ c, P (.const c)) (hv : ∀ v, P (.var v))
    (hb : ∀ v, P (.bound v)) (hf : ∀ f as, (∀ a ∈ as, P a) → P (.fn f as))
    (hg : ∀ as, (∀ a ∈ as, P a) → P (.group as)) : ∀ t, P t := by
  intro t
  refine Term.rec (motive_1 := P) (motive_2 := fun as => ∀ a ∈ as, P a) hc hv hf hg hb ?_ ?_ t
  · intro a ha; simp at ha
  · intro a as h1 h2 x hx
    rcases List.mem_cons.mp hx with rfl | hx
    · exact h1
    · exact h2 x hx

theorem insts_eq (θ : List Char → Term) : ∀ ts, insts θ ts = ts.map (inst θ)
  | [] => rfl
  | t :: ts => by rw [insts, insts_eq θ ts]; rfl

mutual
/-- One pass of `σ`; unmapped variables keep their kind. -/
def res (σ : Subst) : Term → Term
  | .var v => (σ v).getD (.var v)
  | .bound v => (σ v).getD (.bound v)
  | .const c => .const c
  | .fn f as => .fn f (ress σ as)
  | .group as => .group (ress σ as)

/-- The same on lists. -/
def ress (σ : Subst) : List Term → List Term
  | [] => []
  | t :: ts => res σ t :: ress σ ts
end

theorem ress_eq (σ : Subst) : ∀ ts, ress σ ts = ts.map (res σ)
  | [] => rfl
  | t :: ts => by rw [ress, ress_eq σ ts]; rfl

theorem occursAny_iff (v : List Char) : ∀ ts, occursAny v ts = true ↔ ∃ t ∈ ts, occurs v t = true
  | [] => by simp [occursAny]
  | t :: ts => by simp [occursAny, occursAny_iff v ts]

mutual
/-- The number of nodes. -/
def tsize : Term → Nat
  | .var _ => 1
  | .bound _ => 1
  | .const _ => 1
  | .fn _ as => 1 + tsizes as
  | .group as => 1 + tsizes as

/-- The same on lists. -/
def tsizes : List Term → Nat
  | [] => 0
  | t :: ts => tsize t + tsizes ts
end

theorem tsize_mem : ∀ {ts : List Term} {t : Term}, t ∈ ts → tsize t ≤ tsizes ts
  | [], t, h => by simp at h
  | u :: ts, t, h => by
    rw [tsizes]
    rcases List.mem_cons.mp h with rfl | h
    · omega
    · have := tsize_mem h; omega

theorem WKs_iff (K : List Char → Bool) : ∀ ts, WKs K ts ↔ ∀ t ∈ ts, WK K t
  | [] => by simp [WKs]
  | t :: ts => by simp [WKs, WKs_iff K ts]

/-! ### Application -/

/-- The recursion of `apply_subst_to_term` ends with `r`. -/
def Ev (s : Subst) (u r : Term) : Prop := ∃ n, applyTerm n s u = some r

theorem mapAll_mono {α β : Type} {f g : α → Option β} (h : ∀ a r, f a = some r → g a = some r) :
    ∀ {as : List α} {rs : List β}, mapAll f as = some rs → mapAll g as = some rs
  | [], rs, e => e
  | a :: as, rs, e => by
    unfold mapAll at e
    cases h1 : f a with
    | none => simp [h1] at e
    | some u =>
      cases h2 : mapAll f as with
      | none => simp [h1, h2] at e
      | some us =>
        simp only [h1, h2, Option.some.injEq] at e
        unfold mapAll
        rw [h a u h1, mapAll_mono h h2, ← e]

theorem mapAll_some {α β : Type} {f : α → Option β} :
    ∀ {as : List α} {rs : List β}, mapAll f as = some rs ↔ List.Forall₂ (fun a r => f a = some r) as rs
  | [], rs => by
    cases rs <;> simp [mapAll]
  | a :: as, rs => by
    unfold mapAll
    cases h1 : f a with
    | none => cases rs <;> simp [h1]
    | some u =>
      cases h2 : mapAll f as with
      | none =>
        cases rs with
        | nil => simp
        | cons r rs =>
          simp only [List.forall₂_cons, h1]
          rw [← mapAll_some, h2]
          simp
      | some us =>
        cases rs with
        | nil => simp
        | cons r rs =>
          simp only [List.forall₂_cons, h1]
          rw [← mapAll_some, h2]
          simp

theorem applyTerm_succ : ∀ (n : Nat) (s : Subst) (t r : Term), applyTerm n s t = some r →
    applyTerm (n + 1) s t = some r
  | 0, s, t, r, h => by simp [applyTerm] at h
  | n + 1, s, .var v, r, h => by
    unfold applyTerm at h ⊢
    cases hs : s v with
    | none => rw [hs] at h; exact h
    | some x => rw [hs] at h; exact applyTerm_succ n s x r h
  | n + 1, s, .bound v, r, h => by
    unfold applyTerm at h ⊢
    cases hs : s v with
    | none => rw [hs] at h; exact h
    | some x => rw [hs] at h; exact applyTerm_succ n s x r h
  | n + 1, s, .const c, r, h => by simpa [applyTerm] using h
  | n + 1, s, .fn f as, r, h => by
    unfold applyTerm at h ⊢
    simp only [Option.map_eq_some_iff] at h ⊢
    obtain ⟨rs, h1, h2⟩ := h
    exact ⟨rs, mapAll_mono (fun a r h => applyTerm_succ n s a r h) h1, h2⟩
  | n + 1, s, .group as, r, h => by
    unfold applyTerm at h ⊢
    simp only [Option.map_eq_some_iff] at h ⊢
    obtain ⟨rs, h1, h2⟩ := h
    exact ⟨rs, mapAll_mono (fun a r h => applyTerm_succ n s a r h) h1, h2⟩

theorem applyTerm_mono {n m : Nat} {s : Subst} {t r : Term} (h : applyTerm n s t = some r)
    (hm : n ≤ m) : applyTerm m s t = some r := by
  induction hm with
  | refl => exact h
  | step _ ih => exact applyTerm_succ _ s t r ih

theorem Ev.unique {s : Subst} {t r r' : Term} (h : Ev s t r) (h' : Ev s t r') : r = r' := by
  obtain ⟨n, h⟩ := h
  obtain ⟨m, h'⟩ := h'
  have h1 := applyTerm_mono h (Nat.le_max_left n m)
  have h2 := applyTerm_mono h' (Nat.le_max_right n m)
  rw [h1] at h2
  exact Option.some.inj h2

theorem Ev.const (s : Subst) (c : List Char) : Ev s (.const c) (.const c) := ⟨1, rfl⟩

theorem Ev.var_none {s : Subst} {v : List Char} (h : s v = none) : Ev s (.var v) (.var v) :=
  ⟨1, by simp [applyTerm, h]⟩

theorem Ev.bound_none {s : Subst} {v : List Char} (h : s v = none) : Ev s (.bound v) (.bound v) :=
  ⟨1, by simp [applyTerm, h]⟩

theorem Ev.var_some {s : Subst} {v : List Char} {t r : Term} (h : s v = some t) (e : Ev s t r) :
    Ev s (.var v) r := by
  obtain ⟨n, e⟩ := e
  exact ⟨n + 1, by simp [applyTerm, h, e]⟩

theorem Ev.bound_some {s : Subst} {v : List Char} {t r : Term} (h : s v = some t) (e : Ev s t r) :
    Ev s (.bound v) r := by
  obtain ⟨n, e⟩ := e
  exact ⟨n + 1, by simp [applyTerm, h, e]⟩

theorem Ev.all {s : Subst} {as rs : List Term} (h : List.Forall₂ (Ev s) as rs) :
    ∃ n, mapAll (applyTerm n s) as = some rs := by
  induction h with
  | nil => exact ⟨0, rfl⟩
  | cons h1 _ ih =>
    obtain ⟨n, h1⟩ := h1
    obtain ⟨m, h2⟩ := ih
    refine ⟨max n m, ?_⟩
    rw [mapAll_some] at h2 ⊢
    refine List.Forall₂.cons (applyTerm_mono h1 (Nat.le_max_left _ _)) ?_
    exact h2.imp (fun a r h => applyTerm_mono h (Nat.le_max_right _ _))

theorem Ev.fn {s : Subst} {f : List Char} {as rs : List Term} (h : List.Forall₂ (Ev s) as rs) :
    Ev s (.fn f as) (.fn f rs) := by
  obtain ⟨n, h⟩ := Ev.all h
  exact ⟨n + 1, by simp [applyTerm, h]⟩

theorem Ev.group {s : Subst} {as rs : List Term} (h : List.Forall₂ (Ev s) as rs) :
    Ev s (.group as) (.group rs) := by
  obtain ⟨n, h⟩ := Ev.all h
  exact ⟨n + 1, by simp [applyTerm, h]⟩

theorem forall₂_map_right {α β : Type} {R : α → β → Prop} {f : α → β} {as : List α}
    (h : ∀ a ∈ as, R a (f a)) : List.Forall₂ R as (as.map f) := by
  induction as with
  | nil => exact .nil
  | cons a as ih => exact .cons (h a (by simp)) (ih fun b hb => h b (by simp [hb]))

/-- A term without mapped names stays as it is. -/
theorem Ev.closed {s : Subst} : ∀ t, (∀ w, occurs w t = true → s w = none) → Ev s t t := by
  intro t
  induction t using Term.ind with
  | hc c => intro _; exact Ev.const s c
  | hv v => intro h; exact Ev.var_none (h v (by simp [occurs]))
  | hb v => intro h; exact Ev.bound_none (h v (by simp [occurs]))
  | hf f as ih =>
    intro h
    have h2 : List.Forall₂ (Ev s) as (as.map id) := forall₂_map_right fun a ha =>
      ih a ha fun w hw => h w (by rw [occurs, occursAny_iff]; exact ⟨a, ha, hw⟩)
    rw [List.map_id] at h2
    exact Ev.fn h2
  | hg as ih =>
    intro h
    have h2 : List.Forall₂ (Ev s) as (as.map id) := forall₂_map_right fun a ha =>
      ih a ha fun w hw => h w (by rw [occurs, occursAny_iff]; exact ⟨a, ha, hw⟩)
    rw [List.map_id] at h2
    exact Ev.group h2

/-! ### One pass -/

theorem res_closed {σ : Subst} : ∀ t, (∀ w, occurs w t = true → σ w = none) → res σ t = t := by
  intro t
  induction t using Term.ind with
  | hc c => intro _; rfl
  | hv v => intro h; rw [res, h v (by simp [occurs])]; rfl
  | hb v => intro h; rw [res, h v (by simp [occurs])]; rfl
  | hf f as ih =>
    intro h
    rw [res, ress_eq]
    congr 1
    conv_rhs => rw [← List.map_id as]
    exact List.map_congr_left fun a ha =>
      ih a ha fun w hw => h w (by rw [occurs, occursAny_iff]; exact ⟨a, ha, hw⟩)
  | hg as ih =>
    intro h
    rw [res, ress_eq]
    congr 1
    conv_rhs => rw [← List.map_id as]
    exact List.map_congr_left fun a ha =>
      ih a ha fun w hw => h w (by rw [occurs, occursAny_iff]; exact ⟨a, ha, hw⟩)

/-- The names of a substituted term. -/
theorem occurs_res {σ : Subst} {w : List Char} : ∀ t, occurs w (res σ t) = true →
    (occurs w t = true ∧ σ w = none) ∨ ∃ v x, σ v = some x ∧ occurs v t = true ∧ occurs w x = true := by
  have leaf : ∀ (v : List Char) (t : Term), (∀ u, occurs u t = true ↔ u = v) →
      occurs w ((σ v).getD t) = true →
      (occurs w t = true ∧ σ w = none) ∨ ∃ v x, σ v = some x ∧ occurs v t = true ∧ occurs w x = true := by
    intro v t ht h
    cases hv : σ v with
    | none =>
      rw [hv] at h
      exact .inl ⟨h, by rw [(ht w).mp h]; exact hv⟩
    | some x =>
      rw [hv] at h
      exact .inr ⟨v, x, hv, (ht v).mpr rfl, h⟩
  intro t
  induction t using Term.ind with
  | hc c => intro h; simp [res, occurs] at h
  | hv v => intro h; exact leaf v (.var v) (by intro u; simp [occurs, eq_comm]) h
  | hb v => intro h; exact leaf v (.bound v) (by intro u; simp [occurs, eq_comm]) h
  | hf f as ih =>
    intro h
    simp only [res, ress_eq, occurs, occursAny_iff, List.mem_map] at h ⊢
    obtain ⟨_, ⟨a, ha, rfl⟩, h⟩ := h
    rcases ih a ha h with ⟨h1, h2⟩ | ⟨v, x, h1, h2, h3⟩
    · exact .inl ⟨⟨a, ha, h1⟩, h2⟩
    · exact .inr ⟨v, x, h1, ⟨a, ha, h2⟩, h3⟩
  | hg as ih =>
    intro h
    simp only [res, ress_eq, occurs, occursAny_iff, List.mem_map] at h ⊢
    obtain ⟨_, ⟨a, ha, rfl⟩, h⟩ := h
    rcases ih a ha h with ⟨h1, h2⟩ | ⟨v, x, h1, h2, h3⟩
    · exact .inl ⟨⟨a, ha, h1⟩, h2⟩
    · exact .inr ⟨v, x, h1, ⟨a, ha, h2⟩, h3⟩

theorem WK_res {K : List Char → Bool} {σ : Subst} (hσ : ∀ v t, σ v = some t → WK K t) :
    ∀ t, WK K t → WK K (res σ t) := by
  intro t
  induction t using Term.ind with
  | hc c => intro h; exact h
  | hv v => intro h; rw [res]; cases hv : σ v with
    | none => exact h
    | some x => exact hσ v x hv
  | hb v => intro h; rw [res]; cases hv : σ v with
    | none => exact h
    | some x => exact hσ v x hv
  | hf f as ih =>
    intro h
    simp only [res, ress_eq, WK, WKs_iff, List.mem_map] at h ⊢
    rintro _ ⟨a, ha, rfl⟩
    exact ih a ha (h a ha)
  | hg as ih =>
    intro h
    simp only [res, ress_eq, WK, WKs_iff, List.mem_map] at h ⊢
    rintro _ ⟨a, ha, rfl⟩
    exact ih a ha (h a ha)

/-! ### The state of the algorithm -/

/-- `σ` is the resolved form of the substitution `s` the code keeps. -/
structure Inv (s σ : Subst) : Prop where
  dom : ∀ v, s v = none ↔ σ v = none
  resolved : ∀ v t, σ v = some t → ∀ w, occurs w t = true → σ w = none
  ends : ∀ u, Ev s u (res σ u)

theorem Inv.empty : Inv .empty .empty := by
  refine ⟨fun v => Iff.rfl, fun v t h => by simp [Subst.empty] at h, fun u => ?_⟩
  rw [res_closed (σ := Subst.empty) u (fun _ _ => rfl)]
  exact Ev.closed u (fun _ _ => rfl)

theorem Inv.res_names {s σ : Subst} (h : Inv s σ) {t : Term} {w : List Char}
    (hw : occurs w (res σ t) = true) : σ w = none := by
  rcases occurs_res t hw with ⟨_, h1⟩ | ⟨v, x, h1, _, h2⟩
  · exact h1
  · exact h.resolved v x h1 w h2

theorem Inv.res_res {s σ : Subst} (h : Inv s σ) (t : Term) : res σ (res σ t) = res σ t :=
  res_closed _ fun _ hw => h.res_names hw

/-- The substitution of one name. -/
def single (v : List Char) (t : Term) : Subst := Subst.insert .empty v t

/-- The resolved form after a binding. -/
def extend (σ : Subst) (v : List Char) (t : Term) : Subst :=
  fun w => if w = v then some t else (σ w).map (res (single v t))

theorem res_extend {σ : Subst} {v : List Char} {t : Term} (hv : σ v = none) : ∀ u,
    res (extend σ v t) u = res (single v t) (res σ u) := by
  intro u
  induction u using Term.ind with
  | hc c => rfl
  | hv w =>
    simp only [res, extend]
    by_cases hw : w = v
    · subst hw
      simp [hv, res, single, Subst.insert]
    · cases h : σ w with
      | none => simp [hw, res, single, Subst.insert, Subst.empty]
      | some x => simp [hw]
  | hb w =>
    simp only [res, extend]
    by_cases hw : w = v
    · subst hw
      simp [hv, res, single, Subst.insert]
    · cases h : σ w with
      | none => simp [hw, res, single, Subst.insert, Subst.empty]
      | some x => simp [hw]
  | hf f as ih =>
    simp only [res, ress_eq, List.map_map]
    congr 1
    exact List.map_congr_left fun a ha => ih a ha
  | hg as ih =>
    simp only [res, ress_eq, List.map_map]
    congr 1
    exact List.map_congr_left fun a ha => ih a ha

theorem Ev.insert {s : Subst} {v : List Char} {t : Term} (hs : s v = none)
    (ht : ∀ w, occurs w t = true → s w = none) (hv : occurs v t = false) :
    ∀ (n : Nat) (u r : Term), applyTerm n s u = some r → Ev (s.insert v t) u (res (single v t) r) := by
  have leaf : Ev (s.insert v t) t t := by
    refine Ev.closed t fun w hw => ?_
    have hne : w ≠ v := by rintro rfl; rw [hv] at hw; cases hw
    simp [Subst.insert, hne, ht w hw]
  intro n
  induction n with
  | zero => intro u r h; simp [applyTerm] at h
  | succ n ih =>
    intro u r h
    have all : ∀ {as rs : List Term}, mapAll (applyTerm n s) as = some rs →
        List.Forall₂ (Ev (s.insert v t)) as (rs.map (res (single v t))) := by
      intro as rs h
      rw [mapAll_some] at h
      induction h with
      | nil => exact .nil
      | cons h1 _ ih2 => exact .cons (ih _ _ h1) ih2
    cases u with
    | const c =>
      simp only [applyTerm, Option.some.injEq] at h
      subst h
      exact Ev.const _ _
    | var w =>
      unfold applyTerm at h
      cases hw : s w with
      | none =>
        simp only [hw, Option.some.injEq] at h
        subst h
        by_cases hwv : w = v
        · subst hwv
          refine Ev.var_some (t := t) (by simp [Subst.insert]) ?_
          simpa [res, single, Subst.insert] using leaf
        · have : res (single v t) (.var w) = .var w := by
            simp [res, single, Subst.insert, hwv, Subst.empty]
          rw [this]
          exact Ev.var_none (by simp [Subst.insert, hwv, hw])
      | some x =>
        simp only [hw] at h
        have hwv : w ≠ v := by rintro rfl; rw [hs] at hw; cases hw
        exact Ev.var_some (t := x) (by simp [Subst.insert, hwv, hw]) (ih x r h)
    | bound w =>
      unfold applyTerm at h
      cases hw : s w with
      | none =>
        simp only [hw, Option.some.injEq] at h
        subst h
        by_cases hwv : w = v
        · subst hwv
          refine Ev.bound_some (t := t) (by simp [Subst.insert]) ?_
          simpa [res, single, Subst.insert] using leaf
        · have : res (single v t) (.bound w) = .bound w := by
            simp [res, single, Subst.insert, hwv, Subst.empty]
          rw [this]
          exact Ev.bound_none (by simp [Subst.insert, hwv, hw])
      | some x =>
        simp only [hw] at h
        have hwv : w ≠ v := by rintro rfl; rw [hs] at hw; cases hw
        exact Ev.bound_some (t := x) (by simp [Subst.insert, hwv, hw]) (ih x r h)
    | fn f as =>
      unfold applyTerm at h
      simp only [Option.map_eq_some_iff] at h
      obtain ⟨rs, h1, rfl⟩ := h
      rw [res, ress_eq]
      exact Ev.fn (all h1)
    | group as =>
      unfold applyTerm at h
      simp only [Option.map_eq_some_iff] at h
      obtain ⟨rs, h1, rfl⟩ := h
      rw [res, ress_eq]
      exact Ev.group (all h1)

theorem Inv.insert {s σ : Subst} (h : Inv s σ) {v : List Char} {t : Term} (hv : σ v = none)
    (ht : ∀ w, occurs w t = true → σ w = none) (ho : occurs v t = false) :
    Inv (s.insert v t) (extend σ v t) := by
  refine ⟨fun w => ?_, fun w x hw y hy => ?_, fun u => ?_⟩
  · by_cases hw : w = v
    · simp [Subst.insert, extend, hw]
    · simp [Subst.insert, extend, hw, h.dom w]
  · have hyv : ∀ z, occurs z (res (single v t) x) = true → False ∨ True := fun _ _ => .inr trivial
    by_cases hw' : w = v
    · simp only [extend, hw', if_true, Option.some.injEq] at hw
      subst hw
      have : y ≠ v := by rintro rfl; rw [ho] at hy; cases hy
      simp [extend, this, ht y hy]
    · simp only [extend, hw', if_false, Option.map_eq_some_iff] at hw
      obtain ⟨x', hx', rfl⟩ := hw
      rcases occurs_res x' hy with ⟨h1, h2⟩ | ⟨z, q, h1, h2, h3⟩
      · have : y ≠ v := by rintro rfl; simp [single, Subst.insert] at h2
        simp [extend, this, h.resolved w x' hx' y h1]
      · by_cases hz : z = v
        · simp only [single, Subst.insert, hz, if_true, Option.some.injEq] at h1
          subst h1
          have : y ≠ v := by rintro rfl; rw [ho] at h3; cases h3
          simp [extend, this, ht y h3]
        · simp [single, Subst.insert, hz, Subst.empty] at h1
  · obtain ⟨n, hn⟩ := h.ends u
    rw [res_extend hv]
    exact Ev.insert ((h.dom v).mpr hv) (fun w hw => (h.dom w).mpr (ht w hw)) ho n u _ hn

/-! ### Instances -/

/-- `θ` is an instance of `σ`. -/
def Resp (θ : List Char → Term) (σ : Subst) : Prop := ∀ u, inst θ (res σ u) = inst θ u

theorem Resp.empty (θ : List Char → Term) : Resp θ .empty := by
  intro u; rw [res_closed (σ := Subst.empty) u (fun _ _ => rfl)]

theorem inst_single {θ : List Char → Term} {v : List Char} {t : Term} (h : θ v = inst θ t) : ∀ u,
    inst θ (res (single v t) u) = inst θ u := by
  intro u
  induction u using Term.ind with
  | hc c => rfl
  | hv w =>
    by_cases hw : w = v
    · simp [res, single, Subst.insert, hw, inst, h]
    · simp [res, single, Subst.insert, hw, Subst.empty]
  | hb w =>
    by_cases hw : w = v
    · simp [res, single, Subst.insert, hw, inst, h]
    · simp [res, single, Subst.insert, hw, Subst.empty]
  | hf f as ih =>
    simp only [res, ress_eq, inst, insts_eq, List.map_map]
    congr 1
    exact List.map_congr_left fun a ha => ih a ha
  | hg as ih =>
    simp only [res, ress_eq, inst, insts_eq, List.map_map]
    congr 1
    exact List.map_congr_left fun a ha => ih a ha

theorem tsize_inst_le {θ : List Char → Term} {v : List Char} : ∀ t, occurs v t = true →
    tsize (θ v) ≤ tsize (inst θ t) := by
  intro t
  induction t using Term.ind with
  | hc c => intro h; simp [occurs] at h
  | hv w => intro h; simp only [occurs, decide_eq_true_eq] at h; subst h; exact Nat.le_refl _
  | hb w => intro h; simp only [occurs, decide_eq_true_eq] at h; subst h; exact Nat.le_refl _
  | hf f as ih =>
    intro h
    simp only [occurs, occursAny_iff] at h
    obtain ⟨a, ha, h⟩ := h
    have h1 := ih a ha h
    have h2 : tsize (inst θ a) ≤ tsizes (insts θ as) := tsize_mem (by
      rw [insts_eq]; exact List.mem_map_of_mem ha)
    rw [inst, tsize]; omega
  | hg as ih =>
    intro h
    simp only [occurs, occursAny_iff] at h
    obtain ⟨a, ha, h⟩ := h
    have h1 := ih a ha h
    have h2 : tsize (inst θ a) ≤ tsizes (insts θ as) := tsize_mem (by
      rw [insts_eq]; exact List.mem_map_of_mem ha)
    rw [inst, tsize]; omega

theorem tsize_inst_lt {θ : List Char → Term} {v : List Char} {t : Term} (h : occurs v t = true)
    (h1 : t ≠ .var v) (h2 : t ≠ .bound v) : tsize (θ v) < tsize (inst θ t) := by
  cases t with
  | const c => simp [occurs] at h
  | var w => simp only [occurs, decide_eq_true_eq] at h; subst h; exact absurd rfl h1
  | bound w => simp only [occurs, decide_eq_true_eq] at h; subst h; exact absurd rfl h2
  | fn f as =>
    simp only [occurs, occursAny_iff] at h
    obtain ⟨a, ha, h⟩ := h
    have h3 := tsize_inst_le (θ := θ) a h
    have h4 : tsize (inst θ a) ≤ tsizes (insts θ as) := tsize_mem (by
      rw [insts_eq]; exact List.mem_map_of_mem ha)
    rw [inst, tsize]; omega
  | group as =>
    simp only [occurs, occursAny_iff] at h
    obtain ⟨a, ha, h⟩ := h
    have h3 := tsize_inst_le (θ := θ) a h
    have h4 : tsize (inst θ a) ≤ tsizes (insts θ as) := tsize_mem (by
      rw [insts_eq]; exact List.mem_map_of_mem ha)
    rw [inst, tsize]; omega

/-! ### The specification of one call -/

/-- Unmapped names of `V`. -/
def cnt (V : List (List Char)) (s : Subst) : Nat := (V.filter fun v => (s v).isNone).length

theorem cnt_insert {V : List (List Char)} {s : Subst} {v : List Char} {t : Term} (hv : v ∈ V)
    (hs : s v = none) : cnt V (s.insert v t) < cnt V s := by
  unfold cnt
  induction V with
  | nil => simp at hv
  | cons w V ih =>
    have le : ∀ (V : List (List Char)), (V.filter fun u => ((s.insert v t) u).isNone).length ≤
        (V.filter fun u => (s u).isNone).length := by
      intro V
      induction V with
      | nil => simp
      | cons u V ih =>
        by_cases hu : u = v
        · subst hu
          simp [List.filter_cons, Subst.insert, hs] at ih ⊢
          omega
        · have : (s.insert v t) u = s u := by simp [Subst.insert, hu]
          simp only [List.filter_cons, this]
          split
          · simp only [List.length_cons]; omega
          · exact ih
    by_cases hw : w = v
    · subst hw
      have h1 : ((s.insert w t) w).isNone = false := by simp [Subst.insert]
      have h2 : (s w).isNone = true := by simp [hs]
      have := le V
      simp only [List.filter_cons, h1, h2, if_true, List.length_cons]
      simp only [Bool.false_eq_true, if_false]
      omega
    · have hm : v ∈ V := by
        rcases List.mem_cons.mp hv with h | h
        · exact absurd h.symm hw
        · exact h
      have : (s.insert v t) w = s w := by simp [Subst.insert, hw]
      have := ih hm
      simp only [List.filter_cons, *]
      split
      · simp only [List.length_cons]; omega
      · exact ih hm

/-- The names of `σ` are in `V`. -/
def NamesIn (V : List (List Char)) (σ : Subst) : Prop :=
  ∀ v t, σ v = some t → ∀ w, occurs w t = true → w ∈ V

/-- What one call does to the state. -/
structure Step (V : List (List Char)) (s σ s' σ' : Subst) : Prop where
  inv : Inv s' σ'
  names : NamesIn V σ'
  factor : ∃ F : Term → Term, ∀ u, res σ' u = F (res σ u)
  less : (s' = s ∧ σ' = σ) ∨ cnt V s' < cnt V s

/-- Well-kinded substitutions. -/
def WKS (K : List Char → Bool) (σ : Subst) : Prop := ∀ v t, σ v = some t → WK K t

/-- The result solves the equation `eqn` in the most general way, or the equation has no solution. -/
def Good (V : List (List Char)) (s σ : Subst) (eqn : (List Char → Term) → Prop) (done : Subst → Prop)
    (wk : (List Char → Bool) → Prop) : Except UErr Subst → Prop
  | .ok s' => ∃ σ', Step V s σ s' σ' ∧ done σ' ∧ (∀ θ, Resp θ σ → eqn θ → Resp θ σ') ∧
      (∀ K, WKS K σ → wk K → WKS K σ')
  | .error _ => ∀ K θ, WKS K σ → wk K → Resp θ σ → ¬ eqn θ

theorem res_id (u : Term) : res .empty u = u := res_closed u fun _ _ => rfl

theorem Step.refl {V : List (List Char)} {s σ : Subst} (h : Inv s σ) (hn : NamesIn V σ) : Step V s σ s σ :=
  ⟨h, hn, ⟨id, fun _ => rfl⟩, .inl ⟨rfl, rfl⟩⟩

theorem Step.bind {V : List (List Char)} {s σ : Subst} (h : Inv s σ) (hn : NamesIn V σ) {v : List Char}
    {t : Term} (hv : σ v = none) (hvV : v ∈ V) (ht : ∀ w, occurs w t = true → σ w = none ∧ w ∈ V)
    (ho : occurs v t = false) : Step V s σ (s.insert v t) (extend σ v t) := by
  refine ⟨h.insert hv (fun w hw => (ht w hw).1) ho, ?_, ⟨res (single v t), res_extend hv⟩,
    .inr (cnt_insert hvV ((h.dom v).mpr hv))⟩
  intro w x hw y hy
  by_cases hwv : w = v
  · simp only [extend, hwv, if_true, Option.some.injEq] at hw
    subst hw
    exact (ht y hy).2
  · simp only [extend, hwv, if_false, Option.map_eq_some_iff] at hw
    obtain ⟨x', hx', rfl⟩ := hw
    rcases occurs_res x' hy with ⟨h1, _⟩ | ⟨z, q, h1, h2, h3⟩
    · exact hn w x' hx' y h1
    · by_cases hz : z = v
      · simp only [single, Subst.insert, hz, if_true, Option.some.injEq] at h1
        subst h1
        exact (ht y h3).2
      · simp [single, Subst.insert, hz, Subst.empty] at h1

/-- Binding a variable. -/
theorem bindVar_good {V : List (List Char)} {s σ : Subst} (h : Inv s σ) (hn : NamesIn V σ) {v : List Char}
    {t : Term} (hv : σ v = none) (hvV : v ∈ V) (ht : ∀ w, occurs w t = true → σ w = none ∧ w ∈ V)
    {eqn : (List Char → Term) → Prop} {done : Subst → Prop} {wk : (List Char → Bool) → Prop}
    (heq : ∀ θ, eqn θ ↔ θ v = inst θ t)
    (hdone : ∀ σ' : Subst, σ' v = some t → res σ' t = t → done σ')
    (hwk : ∀ K, wk K → WK K t ∧ t ≠ .var v ∧ t ≠ .bound v) :
    Good V s σ eqn done wk (bindVar v t s) := by
  unfold bindVar
  by_cases ho : occurs v t = true
  · rw [if_pos ho]
    intro K θ _ hk _ he
    have := tsize_inst_lt (θ := θ) ho (hwk K hk).2.1 (hwk K hk).2.2
    rw [(heq θ).mp he] at this
    exact Nat.lt_irrefl _ this
  · rw [if_neg ho]
    have ho : occurs v t = false := by simpa using ho
    refine ⟨extend σ v t, Step.bind h hn hv hvV ht ho, hdone _ (by simp [extend]) ?_, ?_, ?_⟩
    · refine res_closed t fun w hw => ?_
      have : w ≠ v := by rintro rfl; rw [ho] at hw; cases hw
      simp [extend, this, (ht w hw).1]
    · intro θ hr he u
      rw [res_extend hv, inst_single ((heq θ).mp he), hr u]
    · intro K hK hk w x hw
      by_cases hwv : w = v
      · simp only [extend, hwv, if_true, Option.some.injEq] at hw
        subst hw
        exact (hwk K hk).1
      · simp only [extend, hwv, if_false, Option.map_eq_some_iff] at hw
        obtain ⟨x', hx', rfl⟩ := hw
        refine WK_res ?_ x' (hK w x' hx')
        intro z q hz
        by_cases hzv : z = v
        · simp only [single, Subst.insert, hzv, if_true, Option.some.injEq] at hz
          subst hz
          exact (hwk K hk).1
        · simp [single, Subst.insert, hzv, Subst.empty] at hz

/-- A call ends with `r`, whatever further depth it is given. -/
def UEv (t1 t2 : Term) (s : Subst) (r : Except UErr Subst) : Prop :=
  ∃ n, ∀ m ≥ n, unifyTerm m t1 t2 s = some r

/-- The claim about one call. -/
def Claim (V : List (List Char)) (s σ : Subst) (t1 t2 : Term) : Prop :=
  ∃ r, UEv t1 t2 s r ∧ Good V s σ (fun θ => inst θ t1 = inst θ t2) (fun σ' => res σ' t1 = res σ' t2)
    (fun K => WK K t1 ∧ WK K t2) r

theorem unifyArgs_claim {V : List (List Char)} {k m : Nat}
    (ih : ∀ (s σ : Subst) (t1 t2 : Term), Inv s σ → NamesIn V σ → (∀ w, occurs w t1 = true → w ∈ V) →
      (∀ w, occurs w t2 = true → w ∈ V) →
      (cnt V s < k ∨ (cnt V s ≤ k ∧ tsize (res σ t1) < m)) → Claim V s σ t1 t2) :
    ∀ (as bs : List Term) (s σ : Subst), Inv s σ → NamesIn V σ →
      (∀ a ∈ as, ∀ w, occurs w a = true → w ∈ V) → (∀ b ∈ bs, ∀ w, occurs w b = true → w ∈ V) →
      as.length = bs.length → cnt V s ≤ k → (cnt V s < k ∨ ∀ a ∈ as, tsize (res σ a) < m) →
      ∃ r, (∃ n, ∀ m ≥ n, unifyArgs (unifyTerm m) as bs s = some r) ∧
        Good V s σ (fun θ => as.map (inst θ) = bs.map (inst θ))
          (fun σ' => as.map (res σ') = bs.map (res σ')) (fun K => WKs K as ∧ WKs K bs) r := by
  intro as
  induction as with
  | nil =>
    intro bs s σ h hn _ _ hl _ _
    cases bs with
    | cons b bs => simp at hl
    | nil =>
      refine ⟨.ok s, ⟨0, fun m _ => rfl⟩, σ, Step.refl h hn, rfl, fun θ hr _ => hr, fun K hK _ => hK⟩
  | cons a as iha =>
    intro bs s σ h hn ha hb hl hk hsz
    cases bs with
    | nil => simp at hl
    | cons b bs =>
      obtain ⟨r, ⟨n, hu⟩, hg⟩ := ih s σ a b h hn (ha a (by simp)) (hb b (by simp)) (by
        rcases hsz with h1 | h1
        · exact .inl h1
        · exact .inr ⟨hk, h1 a (by simp)⟩)
      cases r with
      | error e =>
        refine ⟨.error e, ⟨n, fun m hm => by simp [unifyArgs, hu m hm]⟩, ?_⟩
        intro K θ h1 h2 h3 h4
        simp only [List.map_cons, List.cons.injEq] at h4
        simp only [WKs] at h2
        exact hg K θ h1 ⟨h2.1.1, h2.2.1⟩ h3 h4.1
      | ok s1 =>
        obtain ⟨σ1, st, hd, hmg, hwk⟩ := hg
        obtain ⟨r, ⟨n2, hu2⟩, hg2⟩ := iha bs s1 σ1 st.inv st.names
          (fun x hx => ha x (by simp [hx])) (fun x hx => hb x (by simp [hx])) (by simpa using hl)
          (by rcases st.less with ⟨rfl, _⟩ | hlt
              · exact hk
              · omega)
          (by rcases st.less with ⟨rfl, rfl⟩ | hlt
              · rcases hsz with h1 | h1
                · exact .inl h1
                · exact .inr fun x hx => h1 x (by simp [hx])
              · exact .inl (by omega))
        refine ⟨r, ⟨max n n2, fun m hm => ?_⟩, ?_⟩
        · simp only [unifyArgs, hu m (by omega)]
          exact hu2 m (by omega)
        · cases r with
          | error e =>
            intro K θ h1 h2 h3 h4
            simp only [List.map_cons, List.cons.injEq] at h4
            simp only [WKs] at h2
            exact hg2 K θ (hwk K h1 ⟨h2.1.1, h2.2.1⟩) ⟨h2.1.2, h2.2.2⟩ (hmg θ h3 h4.1) h4.2
          | ok s2 =>
            obtain ⟨σ2, st2, hd2, hmg2, hwk2⟩ := hg2
            obtain ⟨τ1, f1⟩ := st.factor
            obtain ⟨τ2, f2⟩ := st2.factor
            refine ⟨σ2, ⟨st2.inv, st2.names, ?_, ?_⟩, ?_, ?_, ?_⟩
            · exact ⟨fun u => τ2 (τ1 u), fun u => by rw [f2, f1]⟩
            · rcases st.less with ⟨rfl, rfl⟩ | h1
              · exact st2.less
              · rcases st2.less with ⟨rfl, rfl⟩ | h2
                · exact .inr h1
                · exact .inr (by omega)
            · show _ :: _ = _ :: _
              congr 1
              rw [f2, f2 b, hd]
            · intro θ hr he
              simp only [List.map_cons, List.cons.injEq] at he
              exact hmg2 θ (hmg θ hr he.1) he.2
            · intro K h1 h2
              simp only [WKs] at h2
              exact hwk2 K (hwk K h1 ⟨h2.1.1, h2.2.1⟩) ⟨h2.1.2, h2.2.2⟩

theorem Good.congr {V : List (List Char)} {s σ : Subst} {eqn eqn' : (List Char → Term) → Prop}
    {done done' : Subst → Prop} {wk wk' : (List Char → Bool) → Prop} {r : Except UErr Subst}
    (h : Good V s σ eqn done wk r) (h1 : ∀ θ, Resp θ σ → (eqn' θ ↔ eqn θ))
    (h2 : ∀ s' σ', Step V s σ s' σ' → done σ' → done' σ') (h3 : ∀ K, WKS K σ → wk' K → wk K) :
    Good V s σ eqn' done' wk' r := by
  cases r with
  | error e =>
    intro K θ a b c d
    exact h K θ a (h3 K a b) c ((h1 θ c).mp d)
  | ok s' =>
    obtain ⟨σ', st, hd, hm, hw⟩ := h
    exact ⟨σ', st, h2 s' σ' st hd, fun θ a b => hm θ a ((h1 θ a).mp b), fun K a b => hw K a (h3 K a b)⟩

/-- A pair of heads that cannot be equal. -/
theorem good_error {V : List (List Char)} {s σ : Subst} {eqn : (List Char → Term) → Prop}
    {done : Subst → Prop} {wk : (List Char → Bool) → Prop} (e : UErr) (h : ∀ θ, ¬ eqn θ) :
    Good V s σ eqn done wk (.error e) := fun _ θ _ _ _ => h θ

/-- A pair of heads that are equal. -/
theorem good_refl {V : List (List Char)} {s σ : Subst} {eqn : (List Char → Term) → Prop}
    {done : Subst → Prop} {wk : (List Char → Bool) → Prop} (hi : Inv s σ) (hn : NamesIn V σ)
    (h : done σ) : Good V s σ eqn done wk (.ok s) :=
  ⟨σ, Step.refl hi hn, h, fun _ a _ => a, fun _ a _ => a⟩

theorem unifyHeads_claim {V : List (List Char)} {k m : Nat}
    (ih : ∀ (s σ : Subst) (t1 t2 : Term), Inv s σ → NamesIn V σ → (∀ w, occurs w t1 = true → w ∈ V) →
      (∀ w, occurs w t2 = true → w ∈ V) →
      (cnt V s < k ∨ (cnt V s ≤ k ∧ tsize (res σ t1) < m)) → Claim V s σ t1 t2)
    (a b : Term) (s σ : Subst) (h : Inv s σ) (hn : NamesIn V σ)
    (ha : ∀ w, occurs w a = true → σ w = none ∧ w ∈ V) (hb : ∀ w, occurs w b = true → σ w = none ∧ w ∈ V)
    (hk : cnt V s ≤ k) (hm : tsize a ≤ m) :
    ∃ r, (∃ n, ∀ m ≥ n, unifyHeads (unifyTerm m) a b s = some r) ∧
      Good V s σ (fun θ => inst θ a = inst θ b) (fun σ' => res σ' a = res σ' b)
        (fun K => WK K a ∧ WK K b) r := by
  have args : ∀ (as bs : List Term), (∀ x ∈ as, ∀ w, occurs w x = true → σ w = none ∧ w ∈ V) →
      (∀ x ∈ bs, ∀ w, occurs w x = true → σ w = none ∧ w ∈ V) → tsizes as < m →
      as.length = bs.length →
      ∃ r, (∃ n, ∀ m ≥ n, unifyArgs (unifyTerm m) as bs s = some r) ∧
        Good V s σ (fun θ => as.map (inst θ) = bs.map (inst θ))
          (fun σ' => as.map (res σ') = bs.map (res σ')) (fun K => WKs K as ∧ WKs K bs) r := by
    intro as bs h1 h2 h3 h4
    refine unifyArgs_claim ih as bs s σ h hn (fun x hx w hw => (h1 x hx w hw).2)
      (fun x hx w hw => (h2 x hx w hw).2) h4 hk (.inr fun x hx => ?_)
    rw [res_closed x fun w hw => (h1 x hx w hw).1]
    have := tsize_mem hx
    omega
  have varL : ∀ (v : List Char) (t : Term), σ v = none → v ∈ V → (∀ w, occurs w t = true → σ w = none ∧ w ∈ V) →
      (∀ w, t ≠ .var w) → Good V s σ (fun θ => θ v = inst θ t) (fun σ' => (σ' v).getD (.var v) = res σ' t)
        (fun K => K v = true ∧ WK K t) (bindVar v t s) := by
    intro v t hv hvV ht hne
    refine bindVar_good h hn hv hvV ht (fun _ => Iff.rfl) (fun σ' e1 e2 => by rw [e1, e2]; rfl) ?_
    rintro K ⟨k1, k2⟩
    refine ⟨k2, hne v, ?_⟩
    rintro rfl
    simp only [WK, k1] at k2
    cases k2
  cases a with
  | const c =>
    cases b with
    | const d =>
      by_cases hcd : c = d
      · exact ⟨.ok s, ⟨0, fun m _ => by simp [unifyHeads, hcd]⟩, good_refl h hn (by rw [hcd])⟩
      · exact ⟨.error .symbolMismatch, ⟨0, fun m _ => by simp [unifyHeads, hcd]⟩,
          good_error _ (by intro θ e; simp only [inst, Term.const.injEq] at e; exact hcd e)⟩
    | var v =>
      refine ⟨bindVar v (.const c) s, ⟨0, fun m _ => rfl⟩, ?_⟩
      exact (varL v (.const c) (hb v (by simp [occurs])).1 (hb v (by simp [occurs])).2 ha
        (by intro w e; cases e)).congr (fun θ _ => by simp only [inst]; exact eq_comm)
        (fun _ _ _ e => by simpa only [res] using e.symm) (fun K _ hw => ⟨hw.2, hw.1⟩)
    | bound v =>
      refine ⟨bindVar v (.const c) s, ⟨0, fun m _ => rfl⟩, ?_⟩
      refine bindVar_good h hn (hb v (by simp [occurs])).1 (hb v (by simp [occurs])).2 ha
        (fun θ => by simp only [inst]; exact eq_comm) (fun σ' e1 e2 => by simp only [res, e1]; rfl) ?_
      rintro K ⟨k1, k2⟩
      exact ⟨k1, (by intro e; cases e), (by intro e; cases e)⟩
    | fn g bs =>
      exact ⟨.error .unificationFailed, ⟨0, fun m _ => rfl⟩, good_error _ (by
        intro θ e; simp only [inst] at e; cases e)⟩
    | group bs =>
      exact ⟨.error .unificationFailed, ⟨0, fun m _ => rfl⟩, good_error _ (by
        intro θ e; simp only [inst] at e; cases e)⟩
  | var v =>
    have hv := ha v (by simp [occurs])
    by_cases hvar : ∃ w, b = .var w
    · obtain ⟨w, rfl⟩ := hvar
      by_cases hvw : v = w
      · exact ⟨.ok s, ⟨0, fun m _ => by simp [unifyHeads, hvw]⟩, good_refl h hn (by rw [hvw])⟩
      · refine ⟨bindVar v (.var w) s, ⟨0, fun m _ => by simp [unifyHeads, hvw]⟩, ?_⟩
        refine bindVar_good h hn hv.1 hv.2 hb (fun _ => Iff.rfl) (fun σ' e1 e2 => by rw [e2, res, e1]; rfl) ?_
        rintro K ⟨k1, k2⟩
        exact ⟨k2, (by simpa using Ne.symm hvw), (by intro e; cases e)⟩
    · refine ⟨bindVar v b s, ⟨0, fun m _ => ?_⟩, ?_⟩
      · cases b with
        | var w => exact absurd ⟨w, rfl⟩ hvar
        | _ => rfl
      · exact varL v b hv.1 hv.2 hb (fun w e => hvar ⟨w, e⟩)
  | bound v =>
    have hv := ha v (by simp [occurs])
    have bnd : ∀ t : Term, (∀ w, occurs w t = true → σ w = none ∧ w ∈ V) → t ≠ .var v → t ≠ .bound v →
        Good V s σ (fun θ => θ v = inst θ t) (fun σ' => (σ' v).getD (.bound v) = res σ' t)
        (fun K => K v = false ∧ WK K t) (bindVar v t s) := fun t ht n1 n2 =>
      bindVar_good h hn hv.1 hv.2 ht (fun _ => Iff.rfl) (fun σ' e1 e2 => by rw [e2, e1]; rfl)
        (fun K hk => ⟨hk.2, n1, n2⟩)
    cases b with
    | const d =>
      exact ⟨bindVar v (.const d) s, ⟨0, fun m _ => rfl⟩, bnd _ hb (by intro e; cases e) (by intro e; cases e)⟩
    | var w =>
      refine ⟨bindVar w (.bound v) s, ⟨0, fun m _ => rfl⟩, ?_⟩
      exact (varL w (.bound v) (hb w (by simp [occurs])).1 (hb w (by simp [occurs])).2 ha
        (by intro w e; cases e)).congr (fun θ _ => by simp only [inst]; exact eq_comm)
        (fun _ _ _ e => by simpa only [res] using e.symm) (fun K _ hw => ⟨hw.2, hw.1⟩)
    | bound w =>
      by_cases hvw : v = w
      · exact ⟨.ok s, ⟨0, fun m _ => by simp [unifyHeads, hvw]⟩, good_refl h hn (by rw [hvw])⟩
      · exact ⟨bindVar v (.bound w) s, ⟨0, fun m _ => by simp [unifyHeads, hvw]⟩,
          bnd _ hb (by intro e; cases e) (by simpa using Ne.symm hvw)⟩
    | fn g bs =>
      exact ⟨bindVar v (.fn g bs) s, ⟨0, fun m _ => rfl⟩, bnd _ hb (by intro e; cases e) (by intro e; cases e)⟩
    | group bs =>
      exact ⟨bindVar v (.group bs) s, ⟨0, fun m _ => rfl⟩, bnd _ hb (by intro e; cases e) (by intro e; cases e)⟩
  | fn f as =>
    cases b with
    | const d =>
      exact ⟨.error .unificationFailed, ⟨0, fun m _ => rfl⟩, good_error _ (by
        intro θ e; simp only [inst] at e; cases e)⟩
    | var v =>
      refine ⟨bindVar v (.fn f as) s, ⟨0, fun m _ => rfl⟩, ?_⟩
      exact (varL v (.fn f as) (hb v (by simp [occurs])).1 (hb v (by simp [occurs])).2 ha
        (by intro w e; cases e)).congr (fun θ _ => by simp only [inst]; exact eq_comm)
        (fun _ _ _ e => by simpa only [res] using e.symm) (fun K _ hw => ⟨hw.2, hw.1⟩)
    | bound v =>
      refine ⟨bindVar v (.fn f as) s, ⟨0, fun m _ => rfl⟩, ?_⟩
      refine bindVar_good h hn (hb v (by simp [occurs])).1 (hb v (by simp [occurs])).2 ha
        (fun θ => by simp only [inst]; exact eq_comm)
        (fun σ' e1 e2 => by rw [e2]; simp only [res, e1]; rfl) ?_
      rintro K ⟨k1, k2⟩
      exact ⟨k1, (by intro e; cases e), (by intro e; cases e)⟩
    | group bs =>
      exact ⟨.error .unificationFailed, ⟨0, fun m _ => rfl⟩, good_error _ (by
        intro θ e; simp only [inst] at e; cases e)⟩
    | fn g bs =>
      by_cases hfg : f = g
      · subst hfg
        by_cases hl : as.length = bs.length
        · obtain ⟨r, ⟨n, hu⟩, hg⟩ := args as bs
            (fun x hx w hw => ha w (by rw [occurs, occursAny_iff]; exact ⟨x, hx, hw⟩))
            (fun x hx w hw => hb w (by rw [occurs, occursAny_iff]; exact ⟨x, hx, hw⟩))
            (by rw [tsize] at hm; omega) hl
          refine ⟨r, ⟨n, fun m hm => by simpa [unifyHeads, hl] using hu m hm⟩, ?_⟩
          exact hg.congr (fun θ _ => by simp only [inst, insts_eq, Term.fn.injEq, true_and])
            (fun _ _ _ e => by simp only [res, ress_eq, e])
            (fun K _ hw => by simpa only [WK] using hw)
        · refine ⟨.error .arityMismatch, ⟨0, fun m _ => by simp [unifyHeads, hl]⟩, good_error _ ?_⟩
          intro θ e
          simp only [inst, insts_eq, Term.fn.injEq, true_and] at e
          exact hl (by simpa using congrArg List.length e)
      · refine ⟨.error .symbolMismatch, ⟨0, fun m _ => by simp [unifyHeads, hfg]⟩, good_error _ ?_⟩
        intro θ e
        simp only [inst, Term.fn.injEq] at e
        exact hfg e.1
  | group as =>
    cases b with
    | const d =>
      exact ⟨.error .unificationFailed, ⟨0, fun m _ => rfl⟩, good_error _ (by
        intro θ e; simp only [inst] at e; cases e)⟩
    | var v =>
      refine ⟨bindVar v (.group as) s, ⟨0, fun m _ => rfl⟩, ?_⟩
      exact (varL v (.group as) (hb v (by simp [occurs])).1 (hb v (by simp [occurs])).2 ha
        (by intro w e; cases e)).congr (fun θ _ => by simp only [inst]; exact eq_comm)
        (fun _ _ _ e => by simpa only [res] using e.symm) (fun K _ hw => ⟨hw.2, hw.1⟩)
    | bound v =>
      refine ⟨bindVar v (.group as) s, ⟨0, fun m _ => rfl⟩, ?_⟩
      refine bindVar_good h hn (hb v (by simp [occurs])).1 (hb v (by simp [occurs])).2 ha
        (fun θ => by simp only [inst]; exact eq_comm)
        (fun σ' e1 e2 => by rw [e2]; simp only [res, e1]; rfl) ?_
      rintro K ⟨k1, k2⟩
      exact ⟨k1, (by intro e; cases e), (by intro e; cases e)⟩
    | fn g bs =>
      exact ⟨.error .unificationFailed, ⟨0, fun m _ => rfl⟩, good_error _ (by
        intro θ e; simp only [inst] at e; cases e)⟩
    | group bs =>
      by_cases hl : as.length = bs.length
      · obtain ⟨r, ⟨n, hu⟩, hg⟩ := args as bs
          (fun x hx w hw => ha w (by rw [occurs, occursAny_iff]; exact ⟨x, hx, hw⟩))
          (fun x hx w hw => hb w (by rw [occurs, occursAny_iff]; exact ⟨x, hx, hw⟩))
          (by rw [tsize] at hm; omega) hl
        refine ⟨r, ⟨n, fun m hm => by simpa [unifyHeads, hl] using hu m hm⟩, ?_⟩
        exact hg.congr (fun θ _ => by simp only [inst, insts_eq, Term.group.injEq])
          (fun _ _ _ e => by simp only [res, ress_eq, e])
          (fun K _ hw => by simpa only [WK] using hw)
      · refine ⟨.error .arityMismatch, ⟨0, fun m _ => by simp [unifyHeads, hl]⟩, good_error _ ?_⟩
        intro θ e
        simp only [inst, insts_eq, Term.group.injEq] at e
        exact hl (by simpa using congrArg List.length e)

theorem unifyTerm_claim (V : List (List Char)) : ∀ (k m : Nat) (s σ : Subst) (t1 t2 : Term), Inv s σ →
    NamesIn V σ → (∀ w, occurs w t1 = true → w ∈ V) → (∀ w, occurs w t2 = true → w ∈ V) →
    cnt V s ≤ k → tsize (res σ t1) ≤ m → Claim V s σ t1 t2 := by
  intro k
  induction k using Nat.strongRecOn with
  | _ k ihk =>
    intro m
    induction m using Nat.strongRecOn with
    | _ m ihm =>
      intro s σ t1 t2 h hn h1 h2 hk hm
      obtain ⟨r, ⟨n, hu⟩, hg⟩ := unifyHeads_claim (V := V) (k := k) (m := m) (by
          intro s σ t1 t2 a b c d e
          rcases e with e | ⟨e1, e2⟩
          · exact ihk _ e _ s σ t1 t2 a b c d (Nat.le_refl _) (Nat.le_refl _)
          · exact ihm _ e2 s σ t1 t2 a b c d e1 (Nat.le_refl _))
        (res σ t1) (res σ t2) s σ h hn
        (fun w hw => ⟨h.res_names hw, by
          rcases occurs_res t1 hw with ⟨a, _⟩ | ⟨v, x, a, _, b⟩
          · exact h1 w a
          · exact hn v x a w b⟩)
        (fun w hw => ⟨h.res_names hw, by
          rcases occurs_res t2 hw with ⟨a, _⟩ | ⟨v, x, a, _, b⟩
          · exact h2 w a
          · exact hn v x a w b⟩) hk hm
      obtain ⟨n1, e1⟩ := h.ends t1
      obtain ⟨n2, e2⟩ := h.ends t2
      refine ⟨r, ⟨max n (max n1 n2) + 1, fun M hM => ?_⟩, ?_⟩
      · obtain ⟨M, rfl⟩ : ∃ M', M = M' + 1 := ⟨M - 1, by omega⟩
        unfold unifyTerm
        rw [applyTerm_mono e1 (by omega), applyTerm_mono e2 (by omega)]
        exact hu M (by omega)
      · refine hg.congr (fun θ hr => by rw [hr t1, hr t2]) (fun s' σ' st hd => ?_) (fun K hK hw => ?_)
        · obtain ⟨F, hF⟩ := st.factor
          show res σ' t1 = res σ' t2
          rw [hF t1, hF t2]
          have e := hd
          rw [hF, hF (res σ t2), h.res_res, h.res_res] at e
          exact e
        · exact ⟨WK_res hK t1 hw.1, WK_res hK t2 hw.2⟩

/-! ### Depth does not matter -/

theorem unifyArgs_mono {u u' : Term → Term → Subst → Option (Except UErr Subst)}
    (h : ∀ a b s r, u a b s = some r → u' a b s = some r) : ∀ (as bs : List Term) (s : Subst) r,
    unifyArgs u as bs s = some r → unifyArgs u' as bs s = some r
  | [], _, s, r, e => by simpa [unifyArgs] using e
  | _ :: _, [], s, r, e => by simpa [unifyArgs] using e
  | a :: as, b :: bs, s, r, e => by
    unfold unifyArgs at e ⊢
    cases h1 : u a b s with
    | none => simp [h1] at e
    | some x =>
      rw [h a b s x h1]
      cases x with
      | error _ => simpa [h1] using e
      | ok s' =>
        simp only [h1] at e
        exact unifyArgs_mono h as bs s' r e

theorem unifyHeads_mono {u u' : Term → Term → Subst → Option (Except UErr Subst)}
    (h : ∀ a b s r, u a b s = some r → u' a b s = some r) (a b : Term) (s : Subst)
    (r : Except UErr Subst) (e : unifyHeads u a b s = some r) : unifyHeads u' a b s = some r := by
  cases a <;> cases b <;> simp only [unifyHeads] at e ⊢ <;> try exact e
  · split at e
    · rename_i h1; rw [if_pos h1]; exact e
    · rename_i h1
      rw [if_neg h1]
      split at e
      · rename_i h2; rw [if_pos h2]; exact e
      · rename_i h2; rw [if_neg h2]; exact unifyArgs_mono h _ _ s r e
  · split at e
    · rename_i h2; rw [if_pos h2]; exact e
    · rename_i h2; rw [if_neg h2]; exact unifyArgs_mono h _ _ s r e

theorem unifyTerm_succ : ∀ (n : Nat) (a b : Term) (s : Subst) (r : Except UErr Subst),
    unifyTerm n a b s = some r → unifyTerm (n + 1) a b s = some r
  | 0, a, b, s, r, e => by simp [unifyTerm] at e
  | n + 1, a, b, s, r, e => by
    unfold unifyTerm at e
    cases h1 : applyTerm n s a with
    | none => simp [h1] at e
    | some a' =>
      cases h2 : applyTerm n s b with
      | none => simp [h1, h2] at e
      | some b' =>
        simp only [h1, h2] at e
        unfold unifyTerm
        rw [applyTerm_succ n s a a' h1, applyTerm_succ n s b b' h2]
        exact unifyHeads_mono (fun a b s r => unifyTerm_succ n a b s r) a' b' s r e

theorem unifyTerm_mono {n m : Nat} {a b : Term} {s : Subst} {r : Except UErr Subst}
    (e : unifyTerm n a b s = some r) (h : n ≤ m) : unifyTerm m a b s = some r := by
  induction h with
  | refl => exact e
  | step _ ih => exact unifyTerm_succ _ a b s r ih

/-- All names of a list of terms. -/
theorem names_finite : ∀ t : Term, ∃ V : List (List Char), ∀ w, occurs w t = true → w ∈ V := by
  have all : ∀ as : List Term, (∀ a ∈ as, ∃ V : List (List Char), ∀ w, occurs w a = true → w ∈ V) →
      ∃ V : List (List Char), ∀ w, occursAny w as = true → w ∈ V := by
    intro as
    induction as with
    | nil => intro _; exact ⟨[], fun w h => by simp [occursAny] at h⟩
    | cons a as ih =>
      intro h
      obtain ⟨V, hV⟩ := h a (by simp)
      obtain ⟨W, hW⟩ := ih fun b hb => h b (by simp [hb])
      refine ⟨V ++ W, fun w hw => ?_⟩
      simp only [occursAny, Bool.or_eq_true] at hw
      rcases hw with hw | hw
      · exact List.mem_append_left _ (hV w hw)
      · exact List.mem_append_right _ (hW w hw)
  intro t
  induction t using Term.ind with
  | hc c => exact ⟨[], fun w h => by simp [occurs] at h⟩
  | hv v => exact ⟨[v], fun w h => by simp only [occurs, decide_eq_true_eq] at h; simp [h]⟩
  | hb v => exact ⟨[v], fun w h => by simp only [occurs, decide_eq_true_eq] at h; simp [h]⟩
  | hf f as ih => exact all as ih
  | hg as ih => exact all as ih

/-- The whole specification, from the empty substitution. -/
theorem unifyTerms_claim (t1 t2 : Term) : ∃ V r, (∃ n, ∀ m ≥ n, unifyTerms m t1 t2 = some r) ∧
    Good V .empty .empty (fun θ => inst θ t1 = inst θ t2) (fun σ' => res σ' t1 = res σ' t2)
      (fun K => WK K t1 ∧ WK K t2) r := by
  obtain ⟨V, hV⟩ := names_finite t1
  obtain ⟨W, hW⟩ := names_finite t2
  obtain ⟨r, hu, hg⟩ := unifyTerm_claim (V ++ W) _ _ .empty .empty t1 t2 Inv.empty
    (fun v t h => by simp [Subst.empty] at h) (fun w hw => List.mem_append_left _ (hV w hw))
    (fun w hw => List.mem_append_right _ (hW w hw)) (Nat.le_refl _) (Nat.le_refl _)
  exact ⟨V ++ W, r, hu, hg⟩

theorem unifyTerms_good {n : Nat} {t1 t2 : Term} {r : Except UErr Subst}
    (h : unifyTerms n t1 t2 = some r) : ∃ V,
    Good V .empty .empty (fun θ => inst θ t1 = inst θ t2) (fun σ' => res σ' t1 = res σ' t2)
      (fun K => WK K t1 ∧ WK K t2) r := by
  obtain ⟨V, r', ⟨m, hm⟩, hg⟩ := unifyTerms_claim t1 t2
  have h1 := hm (max n m) (Nat.le_max_right _ _)
  have h2 : unifyTerms (max n m) t1 t2 = some r := unifyTerm_mono h (Nat.le_max_left _ _)
  rw [h1] at h2
  cases h2
  exact ⟨V, hg⟩

/-! ### Composition -/

theorem mentions_iff (P : List Char → Prop) : ∀ t, Mentions P t ↔ ∃ w, P w ∧ occurs w t = true := by
  have all : ∀ as : List Term, (∀ a ∈ as, (Mentions P a ↔ ∃ w, P w ∧ occurs w a = true)) →
      (MentionsSome P as ↔ ∃ w, P w ∧ occursAny w as = true) := by
    intro as
    induction as with
    | nil => intro _; simp [MentionsSome, occursAny]
    | cons a as ih =>
      intro h
      rw [MentionsSome, h a (by simp), ih fun b hb => h b (by simp [hb])]
      simp only [occursAny, Bool.or_eq_true]
      constructor
      · rintro (⟨w, h1, h2⟩ | ⟨w, h1, h2⟩)
        · exact ⟨w, h1, .inl h2⟩
        · exact ⟨w, h1, .inr h2⟩
      · rintro ⟨w, h1, h2 | h2⟩
        · exact .inl ⟨w, h1, h2⟩
        · exact .inr ⟨w, h1, h2⟩
  intro t
  induction t using Term.ind with
  | hc c => simp [Mentions, occurs]
  | hv v => simp [Mentions, occurs]
  | hb v => simp [Mentions, occurs]
  | hf f as ih => simp only [Mentions, occurs]; exact all as ih
  | hg as ih => simp only [Mentions, occurs]; exact all as ih

/-- A substitution whose values mention no mapped name is applied in one pass. -/
theorem Ev.resolved {s : Subst} (h : ∀ v t, s v = some t → ∀ w, occurs w t = true → s w = none) :
    ∀ u, Ev s u (res s u) := by
  intro u
  induction u using Term.ind with
  | hc c => exact Ev.const s c
  | hv v =>
    rw [res]
    cases hv : s v with
    | none => exact Ev.var_none hv
    | some t => exact Ev.var_some hv (Ev.closed t fun w hw => h v t hv w hw)
  | hb v =>
    rw [res]
    cases hv : s v with
    | none => exact Ev.bound_none hv
    | some t => exact Ev.bound_some hv (Ev.closed t fun w hw => h v t hv w hw)
  | hf f as ih => rw [res, ress_eq]; exact Ev.fn (forall₂_map_right ih)
  | hg as ih => rw [res, ress_eq]; exact Ev.group (forall₂_map_right ih)

/-! ### Matching -/

theorem fills_eq (s : Subst) : ∀ ts, fills s ts = ts.map (fill s)
  | [] => rfl
  | t :: ts => by rw [fills, fills_eq s ts]; rfl

theorem HasVars_iff (v : List Char) : ∀ ts, HasVars v ts ↔ ∃ t ∈ ts, HasVar v t
  | [] => by simp [HasVars]
  | t :: ts => by simp [HasVars, HasVars_iff v ts]

theorem termsEq_iff_of : ∀ (as bs : List Term), (∀ a ∈ as, ∀ b, termEq a b = true ↔ a = b) →
    (termsEq as bs = true ↔ as = bs)
  | [], [], _ => by simp [termsEq]
  | [], _ :: _, _ => by simp [termsEq]
  | _ :: _, [], _ => by simp [termsEq]
  | a :: as, b :: bs, h => by
    rw [termsEq, Bool.and_eq_true, h a (by simp) b, termsEq_iff_of as bs fun x hx => h x (by simp [hx])]
    simp

theorem termEq_iff : ∀ a b : Term, termEq a b = true ↔ a = b := by
  intro a
  induction a using Term.ind with
  | hc c => intro b; cases b <;> simp [termEq]
  | hv v => intro b; cases b <;> simp [termEq]
  | hb v => intro b; cases b <;> simp [termEq]
  | hf f as ih => intro b; cases b <;> simp [termEq, termsEq_iff_of _ _ ih]
  | hg as ih => intro b; cases b <;> simp [termEq, termsEq_iff_of _ _ ih]

/-- Two substitutions that agree on the variables of a term fill it alike. -/
theorem fill_congr {s s' : Subst} : ∀ t, (∀ v, HasVar v t → s v = s' v) → fill s t = fill s' t := by
  intro t
  induction t using Term.ind with
  | hc c => intro _; rfl
  | hv v => intro h; rw [fill, fill, h v rfl]
  | hb v => intro _; rfl
  | hf f as ih =>
    intro h
    rw [fill, fill, fills_eq, fills_eq]
    congr 1
    exact List.map_congr_left fun a ha => ih a ha fun v hv => h v (by
      rw [HasVar, HasVars_iff]; exact ⟨a, ha, hv⟩)
  | hg as ih =>
    intro h
    rw [fill, fill, fills_eq, fills_eq]
    congr 1
    exact List.map_congr_left fun a ha => ih a ha fun v hv => h v (by
      rw [HasVar, HasVars_iff]; exact ⟨a, ha, hv⟩)

end Verif.Proof
