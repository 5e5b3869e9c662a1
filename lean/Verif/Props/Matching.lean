import Verif.Proof.MatchLemmas
/-!
# C87 – One-sided matching is exact
-/
namespace Verif.Props
open Verif.Proof

theorem maskL_nil (s : Subst) : maskL [] s = s := by funext v; simp [maskL]

/-- **C87** (terms): a match is a substitution of exactly the pattern's variables that turns the pattern
into the target, and it is the only one. -/
theorem C87_term_sound (p t : Term) (s : Subst) (h : matchTermPattern p t = some s) :
    fill s p = t ∧ (∀ v, s v ≠ none ↔ HasVar v p) ∧
    ∀ s' : Subst, fill s' p = t → ∀ v, HasVar v p → s v = some ((s' v).getD (.var v)) := by
  have h1 := matchTerm_spec [] p t .empty
  unfold MSpec at h1
  unfold matchTermPattern at h
  rw [h] at h1
  obtain ⟨e, m⟩ := h1
  rw [maskL_nil] at e
  refine ⟨e, fun v => ⟨fun hv => ?_, fun hv => m.dom v hv (by simp)⟩, fun s' hs' v hv => ?_⟩
  · by_contra hn
    exact hv (m.only v (.inl hn))
  · have := fill_inj p (e.trans hs'.symm) v hv
    cases hx : s v with
    | none => exact absurd hx (m.dom v hv (by simp))
    | some x => rw [hx] at this; rw [← this]; rfl

/-- **C87** (terms): if some substitution of the pattern's variables gives the target, there is a
match. -/
theorem C87_term_complete (p t : Term) (s' : Subst) (h : fill s' p = t) :
    ∃ s, matchTermPattern p t = some s := by
  have h1 := matchTerm_spec [] p t .empty
  unfold MSpec at h1
  unfold matchTermPattern
  cases hm : matchTerm [] p t .empty with
  | some s => exact ⟨s, rfl⟩
  | none =>
    rw [hm] at h1
    exact absurd (by show fill (maskL [] s') p = t; rw [maskL_nil]; exact h)
      (h1 s' (fun v x hv => by simp [Subst.empty] at hv) (fun v _ _ w hw => by simp at hw))

/-- `f(x, g(x), y)` matches `f(a, g(a), h(b))`, and not `f(a, g(b), c)`. -/
example :
    let p := Term.fn ['f'] [.var ['x'], .fn ['g'] [.var ['x']], .var ['y']]
    (∃ s, matchTermPattern p (.fn ['f'] [.const ['a'], .fn ['g'] [.const ['a']], .fn ['h'] [.const ['b']]])
      = some s ∧ s ['x'] = some (.const ['a']) ∧ s ['y'] = some (.fn ['h'] [.const ['b']])) ∧
    (matchTermPattern p (.fn ['f'] [.const ['a'], .fn ['g'] [.const ['b']], .const ['c']])).isNone :=
  ⟨⟨_, rfl, rfl, rfl⟩, rfl⟩

/-- **C87** (formulas), for first-order patterns: a match is a substitution of exactly the free
variables that turns the pattern into the target (as written, see `C87_capture_fails`). -/
theorem C87_formula_sound_partial (p t : QExpr) (s : Subst) (hp : FirstOrder p)
    (h : matchExprPattern p t = some s) :
    fillExpr s p = t ∧ ∀ v, s v ≠ none ↔ HasVarE v p := by
  have h1 := matchExpr_spec p t [] .empty hp
  unfold MSpecE at h1
  unfold matchExprPattern at h
  rw [h] at h1
  obtain ⟨e, m⟩ := h1
  rw [maskL_nil] at e
  refine ⟨e, fun v => ⟨fun hv => ?_, fun hv => m.dom v hv (by simp)⟩⟩
  by_contra hn
  exact hv (m.only v (.inl hn))

theorem captureFree_of {t : QExpr} : ∀ (p : QExpr) (s : Subst),
    (∀ x, Quantified x p → ¬ FreeName x t) →
    (∀ v, HasVarE v p → ∀ x, s v = some x → ∀ w, occurs w x = true → FreeName w t) →
    (∀ v, HasVarE v p → s v ≠ none) → CaptureFree s p := by
  have main : ∀ (p : QExpr) (s : Subst), (∀ x, Quantified x p → ¬ FreeName x t) →
      (∀ v, HasVarE v p → (s v = none) ∨ ∃ x, s v = some x ∧ ∀ w, occurs w x = true → FreeName w t) →
      CaptureFree s p := by
    intro p
    induction p with
    | pred _ _ _ => intro _ _ _; trivial
    | ident _ _ => intro _ _ _; trivial
    | atom _ => intro _ _ _; trivial
    | bin op a b iha ihb =>
      intro s h1 h2
      exact ⟨iha s (fun x hx => h1 x (.inl hx)) (fun v hv => h2 v (.inl hv)),
        ihb s (fun x hx => h1 x (.inr hx)) (fun v hv => h2 v (.inr hv))⟩
    | un op a ih => intro s h1 h2; exact ih s h1 h2
    | quant q x b ih =>
      intro s h1 h2
      refine ⟨?_, ih _ (fun y hy => h1 y (.inr hy)) ?_⟩
      · intro v hv hvx
        rw [mentions_eq_iff]
        rcases h2 v ⟨Ne.symm hvx, hv⟩ with hn | ⟨y, hy, hw⟩
        · rw [hn]
          simpa [occurs] using hvx
        · rw [hy]
          intro ho
          exact h1 x (.inl rfl) (hw x ho)
      · intro v hv
        by_cases hvx : v = x
        · exact .inl (by simp [without, hvx])
        · rcases h2 v ⟨Ne.symm hvx, hv⟩ with hn | ⟨y, hy, hw⟩
          · exact .inl (by simp [without, hvx, hn])
          · exact .inr ⟨y, by simp [without, hvx, hy], hw⟩
  intro p s h1 h2 h3
  refine main p s h1 fun v hv => ?_
  cases hx : s v with
  | none => exact absurd hx (h3 v hv)
  | some x => exact .inr ⟨x, rfl, h2 v hv x hx⟩

/-- **C87** (formulas, capture): if no name quantified in the pattern occurs free in the target, no
binding is captured. -/
theorem C87_capture_partial (p t : QExpr) (s : Subst) (hp : FirstOrder p)
    (h : matchExprPattern p t = some s) (hfree : ∀ x, Quantified x p → ¬ FreeName x t) :
    CaptureFree s p := by
  have h1 := matchExpr_spec p t [] .empty hp
  unfold MSpecE at h1
  unfold matchExprPattern at h
  rw [h] at h1
  obtain ⟨_, m⟩ := h1
  refine captureFree_of p s hfree (fun v _ x hx w hw => ?_) (fun v hv => m.dom v hv (by simp))
  rcases m.vals v x hx with h2 | h2
  · simp [Subst.empty] at h2
  · exact (h2 w hw).2

/-- **C87** (formulas): if some capture-free substitution of the free variables of a first-order
pattern gives the target, there is a match, and it gives the variables the same values. -/
theorem C87_formula_complete (p t : QExpr) (s' : Subst) (hp : FirstOrder p) (hc : CaptureFree s' p)
    (h : fillExpr s' p = t) :
    ∃ s, matchExprPattern p t = some s ∧ ∀ v, HasVarE v p → s v = some ((s' v).getD (.var v)) := by
  have h1 := matchExpr_spec p t [] .empty hp
  unfold MSpecE at h1
  unfold matchExprPattern
  cases hm : matchExpr [] p t .empty with
  | some s =>
    rw [hm] at h1
    obtain ⟨e, m⟩ := h1
    rw [maskL_nil] at e
    refine ⟨s, rfl, fun v hv => ?_⟩
    have := fillExpr_inj p (e.trans h.symm) v hv
    cases hx : s v with
    | none => exact absurd hx (m.dom v hv (by simp))
    | some x => rw [hx] at this; rw [← this]; rfl
  | none =>
    rw [hm] at h1
    exact absurd (by
        show CaptureFree (maskL [] s') p ∧ fillExpr (maskL [] s') p = t
        rw [maskL_nil]; exact ⟨hc, h⟩)
      (h1 s' (fun v x hv => by simp [Subst.empty] at hv) (fun v _ _ w hw => by simp at hw))

/-- `P(v) ∧ ∀x Q(x, v)` matches `P(a) ∧ ∀x Q(x, a)`. -/
example :
    let p := QExpr.bin .and (.pred ['P'] [.var ['v']] none)
      (.quant .all ['x'] (.pred ['Q'] [.var ['x'], .var ['v']] none))
    let t := QExpr.bin .and (.pred ['P'] [.const ['a']] none)
      (.quant .all ['x'] (.pred ['Q'] [.var ['x'], .const ['a']] none))
    FirstOrder p ∧ (∀ x, Quantified x p → ¬ FreeName x t) ∧
    (∃ s, matchExprPattern p t = some s ∧ s ['v'] = some (.const ['a']) ∧ s ['x'] = none) ∧
    CaptureFree (Subst.insert .empty ['v'] (.const ['a'])) p ∧
    fillExpr (Subst.insert .empty ['v'] (.const ['a'])) p = t := by
  refine ⟨?_, ?_, ⟨_, rfl, rfl, rfl⟩, ?_, ?_⟩
  · simp [FirstOrder]
  · intro x hx
    simp only [Quantified, or_false, false_or] at hx
    subst hx
    simp [FreeName, MentionsSome, Mentions]
  · simp only [CaptureFree, and_true, true_and]
    intro v hv hvx
    simp only [HasVarE, HasVars, HasVar, or_false] at hv
    rcases hv with rfl | rfl
    · exact absurd rfl hvx
    · simp [Subst.insert, Mentions]
  · simp [fillExpr, fills, fill, Subst.insert, Subst.empty, without]

/-- **C87** is false for capture: `P(v) ∧ ∀x Q(v)` matches `P(x) ∧ ∀x Q(x)` with `v ↦ x`, so the free
`x` of the first conjunct is identified with the quantified one of the second. With the conjuncts
swapped the match is refused. -/
theorem C87_capture_fails :
    let P := fun a => QExpr.pred ['P'] [.var a] none
    let Q := fun a => QExpr.pred ['Q'] [.var a] none
    (∃ s, matchExprPattern (.bin .and (P ['v']) (.quant .all ['x'] (Q ['v'])))
        (.bin .and (P ['x']) (.quant .all ['x'] (Q ['x']))) = some s ∧ s ['v'] = some (.var ['x']) ∧
      ¬ CaptureFree s (.bin .and (P ['v']) (.quant .all ['x'] (Q ['v'])))) ∧
    (matchExprPattern (.bin .and (.quant .all ['x'] (Q ['v'])) (P ['v']))
        (.bin .and (.quant .all ['x'] (Q ['x'])) (P ['x']))).isNone := by
  refine ⟨⟨_, rfl, rfl, ?_⟩, rfl⟩
  simp only [CaptureFree, true_and, and_true]
  intro h
  refine h ['v'] (by simp [HasVarE, HasVars, HasVar]) (by decide) ?_
  simp [Subst.insert, Mentions]

/-- **C87** is false for patterns with temporal operators: `Past(P(x)) ∧ Q(x)` matches
`Past(P(x)) ∧ Q(a)` with `x ↦ a`, although the pattern then reads `Past(P(a)) ∧ Q(a)`. -/
theorem C87_temporal_fails :
    let p := QExpr.bin .and (.un (.temporal ['P', 'a', 's', 't']) (.pred ['P'] [.var ['x']] none))
      (.pred ['Q'] [.var ['x']] none)
    let t := QExpr.bin .and (.un (.temporal ['P', 'a', 's', 't']) (.pred ['P'] [.var ['x']] none))
      (.pred ['Q'] [.const ['a']] none)
    ∃ s, matchExprPattern p t = some s ∧ s ['x'] = some (.const ['a']) ∧ fillExpr s p ≠ t := by
  refine ⟨_, rfl, rfl, ?_⟩
  simp [fillExpr, fills, fill, Subst.insert, Subst.empty]

/-- **C87** (use of a match): applying a match to the premises of the matched lemma does not end when
the target mentions the pattern variable, here `P(x)` against `P(x)`. -/
theorem C87_apply_fails :
    ∃ s, matchExprPattern (.pred ['P'] [.var ['x']] none) (.pred ['P'] [.var ['x']] none) = some s ∧
      ∀ n, applyExpr n s (.pred ['Q'] [.var ['x']] none) = none := by
  refine ⟨_, rfl, fun n => ?_⟩
  have loop : ∀ n, applyTerm n (Subst.insert .empty ['x'] (.var ['x'])) (.var ['x']) = none := by
    intro n
    induction n with
    | zero => rfl
    | succ n ih => unfold applyTerm; simpa [Subst.insert] using ih
  simp only [applyExpr, mapAll, loop n, Option.map_none]

/-- **C87** (use of a match), when the target shares no name with the pattern: applying the match to
the pattern ends and gives the target. -/
theorem C87_apply_partial (p t : Term) (s : Subst) (h : matchTermPattern p t = some s)
    (hb : ∀ v, ¬ (occurs v p = true ∧ occurs v t = true)) (hkind : ∃ K, WK K p) :
    ∃ n, applyTerm n s p = some t := by
  have h1 := matchTerm_spec [] p t .empty
  unfold MSpec at h1
  unfold matchTermPattern at h
  rw [h] at h1
  obtain ⟨e, m⟩ := h1
  rw [maskL_nil] at e
  have hv : ∀ v, HasVar v p → occurs v p = true := by
    intro v
    clear e m h hkind hb
    induction p using Term.ind with
    | hc c => intro h; simp [HasVar] at h
    | hv w => intro h; simp only [HasVar] at h; subst h; simp [occurs]
    | hb w => intro h; simp [HasVar] at h
    | hf f as ih =>
      intro h
      simp only [HasVar, HasVars_iff] at h
      obtain ⟨a, ha, h⟩ := h
      rw [occurs, occursAny_iff]; exact ⟨a, ha, ih a ha h⟩
    | hg as ih =>
      intro h
      simp only [HasVar, HasVars_iff] at h
      obtain ⟨a, ha, h⟩ := h
      rw [occurs, occursAny_iff]; exact ⟨a, ha, ih a ha h⟩
  have dom : ∀ v, s v ≠ none → HasVar v p := by
    intro v hv
    by_contra hn
    exact hv (m.only v (.inl hn))
  have rs : ∀ v x, s v = some x → ∀ w, occurs w x = true → s w = none := by
    intro v x hx w hw
    rcases m.vals v x hx with h2 | h2
    · simp [Subst.empty] at h2
    · by_contra hn
      exact hb w ⟨hv w (dom w hn), (h2 w hw).2⟩
  obtain ⟨n, hn⟩ := Ev.resolved rs p
  refine ⟨n, ?_⟩
  rw [hn]
  congr 1
  rw [← e]
  obtain ⟨K, hK⟩ := hkind
  have nb : ∀ v, K v = false → s v = none := by
    intro v hk
    by_contra hn
    have hvar := dom v hn
    have : ∀ q : Term, WK K q → HasVar v q → K v = true := by
      intro q
      induction q using Term.ind with
      | hc c => intro _ h; simp [HasVar] at h
      | hv w => intro h1 h2; simp only [HasVar] at h2; subst h2; exact h1
      | hb w => intro _ h; simp [HasVar] at h
      | hf f as ih =>
        intro h1 h2
        simp only [HasVar, HasVars_iff, WK, WKs_iff] at h1 h2
        obtain ⟨a, ha, h2⟩ := h2
        exact ih a ha (h1 a ha) h2
      | hg as ih =>
        intro h1 h2
        simp only [HasVar, HasVars_iff, WK, WKs_iff] at h1 h2
        obtain ⟨a, ha, h2⟩ := h2
        exact ih a ha (h1 a ha) h2
    rw [this p hK hvar] at hk
    cases hk
  clear e m h hb hv dom hn rs
  induction p using Term.ind with
  | hc c => rfl
  | hv v => rfl
  | hb v => rw [res, fill, nb v hK]; rfl
  | hf f as ih =>
    simp only [WK, WKs_iff] at hK
    rw [res, fill, ress_eq, fills_eq]
    congr 1
    exact List.map_congr_left fun a ha => ih a ha (hK a ha)
  | hg as ih =>
    simp only [WK, WKs_iff] at hK
    rw [res, fill, ress_eq, fills_eq]
    congr 1
    exact List.map_congr_left fun a ha => ih a ha (hK a ha)

/-- `f(x)` against `f(g(y))`. -/
example :
    (∃ s, matchTermPattern (.fn ['f'] [.var ['x']]) (.fn ['f'] [.fn ['g'] [.var ['y']]]) = some s) ∧
    (∀ v, ¬ (occurs v (.fn ['f'] [.var ['x']]) = true ∧
      occurs v (.fn ['f'] [.fn ['g'] [.var ['y']]]) = true)) ∧
    WK (fun _ => true) (.fn ['f'] [.var ['x']]) := by
  refine ⟨⟨_, rfl⟩, ?_, by simp [WK, WKs]⟩
  intro v ⟨h1, h2⟩
  simp [occurs, occursAny] at h1 h2
  subst h1
  exact absurd h2 (by decide)

end Verif.Props
