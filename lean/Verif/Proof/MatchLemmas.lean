import Verif.Proof.UnifyLemmas
import Verif.Proof.UnifyExprSpec
/-!
# Lemmas on one-sided matching
-/

namespace Verif.Proof

/-- `s` without the names in `bnd`. -/
def maskL (bnd : List (List Char)) (s : Subst) : Subst := fun v => if v ∈ bnd then none else s v

/-- `s'` gives every name mapped by `s` the same value. -/
def Covers (s s' : Subst) : Prop := ∀ v x, s v = some x → (s' v).getD (.var v) = x

theorem mentionsAny_iff (bnd : List (List Char)) : ∀ t : Term,
    mentionsAny bnd t = true ↔ ∃ w ∈ bnd, occurs w t = true := by
  have all : ∀ as : List Term, (∀ a ∈ as, (mentionsAny bnd a = true ↔ ∃ w ∈ bnd, occurs w a = true)) →
      (mentionsAnys bnd as = true ↔ ∃ w ∈ bnd, occursAny w as = true) := by
    intro as
    induction as with
    | nil => intro _; simp [mentionsAnys, occursAny]
    | cons a as ih =>
      intro h
      rw [mentionsAnys, Bool.or_eq_true, h a (by simp), ih fun b hb => h b (by simp [hb])]
      simp only [occursAny, Bool.or_eq_true]
      constructor
      · rintro (⟨w, h1, h2⟩ | ⟨w, h1, h2⟩)
        · exact ⟨w, h1, .inl h2⟩
        · exact ⟨w, h1, .inr h2⟩
      · rintro ⟨w, h1, h2 | h2⟩
        · exact .inl ⟨w, h1, h2⟩
        · exact .inr ⟨w, h1, h2⟩
  intro t
  induction t using Term.ind with
  | hc c => simp [mentionsAny, occurs]
  | hv v => simp [mentionsAny, occurs]
  | hb v => simp [mentionsAny, occurs]
  | hf f as ih => simp only [mentionsAny, occurs]; exact all as ih
  | hg as ih => simp only [mentionsAny, occurs]; exact all as ih

/-- Equal fillings give equal values to the variables. -/
theorem fill_inj {s s' : Subst} : ∀ t, fill s t = fill s' t → ∀ v, HasVar v t →
    (s v).getD (.var v) = (s' v).getD (.var v) := by
  intro t
  induction t using Term.ind with
  | hc c => intro _ v hv; simp [HasVar] at hv
  | hv w => intro h v hv; simp only [HasVar] at hv; subst hv; exact h
  | hb w => intro _ v hv; simp [HasVar] at hv
  | hf f as ih =>
    intro h v hv
    simp only [fill, fills_eq, Term.fn.injEq, true_and] at h
    simp only [HasVar, HasVars_iff] at hv
    obtain ⟨a, ha, hv⟩ := hv
    exact ih a ha (List.map_inj_left.mp h a ha) v hv
  | hg as ih =>
    intro h v hv
    simp only [fill, fills_eq, Term.group.injEq] at h
    simp only [HasVar, HasVars_iff] at hv
    obtain ⟨a, ha, hv⟩ := hv
    exact ih a ha (List.map_inj_left.mp h a ha) v hv

/-- What an answer of the matcher means; `has` are the free variables of the pattern, `fil` its
filling, `occ` the names of the target. -/
structure Matched (bnd : List (List Char)) (s s' : Subst) (has : List Char → Prop)
    (occ : List Char → Prop) : Prop where
  ext : ∀ v x, s v = some x → s' v = some x
  dom : ∀ v, has v → v ∉ bnd → s' v ≠ none
  only : ∀ v, (¬ has v ∨ v ∈ bnd) → s' v = s v
  vals : ∀ v x, s' v = some x → s v = some x ∨ ∀ w, occurs w x = true → w ∉ bnd ∧ occ w

theorem Matched.refl (bnd : List (List Char)) (s : Subst) (has : List Char → Prop) (occ : List Char → Prop)
    (h : ∀ v, has v → v ∈ bnd ∨ s v ≠ none) : Matched bnd s s has occ :=
  ⟨fun _ _ h => h, fun v hv hb => (h v hv).resolve_left hb, fun _ _ => rfl, fun _ _ h => .inl h⟩

theorem Matched.trans {bnd : List (List Char)} {s s1 s2 : Subst} {has has' occ occ' : List Char → Prop}
    (h : Matched bnd s s1 has occ) (h' : Matched bnd s1 s2 has' occ') :
    Matched bnd s s2 (fun v => has v ∨ has' v) (fun w => occ w ∨ occ' w) where
  ext v x hx := h'.ext v x (h.ext v x hx)
  dom v hv hb := by
    rcases hv with hv | hv
    · cases hx : s1 v with
      | none => exact absurd hx (h.dom v hv hb)
      | some x => rw [h'.ext v x hx]; simp
    · exact h'.dom v hv hb
  only v hv := by
    rw [h'.only v (hv.imp (fun a b => a (.inr b)) id), h.only v (hv.imp (fun a b => a (.inl b)) id)]
  vals v x hx := by
    rcases h'.vals v x hx with h1 | h1
    · rcases h.vals v x h1 with h2 | h2
      · exact .inl h2
      · exact .inr fun w hw => ⟨(h2 w hw).1, .inl (h2 w hw).2⟩
    · exact .inr fun w hw => ⟨(h1 w hw).1, .inr (h1 w hw).2⟩

/-- A later substitution fills an earlier pattern alike. -/
theorem Matched.stable {bnd : List (List Char)} {s s1 s2 : Subst} {has occ has' occ' : List Char → Prop}
    (h : Matched bnd s s1 has occ) (h' : Matched bnd s1 s2 has' occ') {v : List Char} (hv : has v) :
    maskL bnd s1 v = maskL bnd s2 v := by
  unfold maskL
  by_cases hb : v ∈ bnd
  · simp [hb]
  · simp only [hb, if_false]
    cases hx : s1 v with
    | none => exact absurd hx (h.dom v hv hb)
    | some x => rw [h'.ext v x hx]

/-- What a failed match means. -/
def NoMatch (bnd : List (List Char)) (s : Subst) (has : List Char → Prop) (same : Subst → Prop) : Prop :=
  ∀ s' : Subst, Covers s s' →
    (∀ v, has v → v ∉ bnd → ∀ w ∈ bnd, occurs w ((s' v).getD (.var v)) = false) → ¬ same s'

theorem covers_step {bnd : List (List Char)} {s s1 s' : Subst} {has occ : List Char → Prop}
    (h : Matched bnd s s1 has occ) (hc : Covers s s')
    (he : ∀ v, has v → (maskL bnd s1 v).getD (.var v) = (maskL bnd s' v).getD (.var v)) : Covers s1 s' := by
  intro v x hx
  by_cases hb : has v ∧ v ∉ bnd
  · have := he v hb.1
    simp only [maskL, hb.2, if_false, hx] at this
    rw [← this]; rfl
  · have : s1 v = s v := h.only v (by tauto)
    exact hc v x (by rw [← this]; exact hx)

/-- The specification of matching one term. -/
def MSpec (bnd : List (List Char)) (p t : Term) (s : Subst) : Prop :=
  match matchTerm bnd p t s with
  | some s' => fill (maskL bnd s') p = t ∧ Matched bnd s s' (fun v => HasVar v p) (fun w => occurs w t = true)
  | none => NoMatch bnd s (fun v => HasVar v p) (fun s' => fill (maskL bnd s') p = t)

/-- The specification of matching lists of terms. -/
def MSpecs (bnd : List (List Char)) (ps ts : List Term) (s : Subst) : Prop :=
  match matchTerms bnd ps ts s with
  | some s' => ps.map (fill (maskL bnd s')) = ts ∧
      Matched bnd s s' (fun v => HasVars v ps) (fun w => occursAny w ts = true)
  | none => NoMatch bnd s (fun v => HasVars v ps) (fun s' => ps.map (fill (maskL bnd s')) = ts)

theorem matchTerms_spec (bnd : List (List Char)) : ∀ (ps ts : List Term) (s : Subst),
    ps.length = ts.length → (∀ p ∈ ps, ∀ t s, MSpec bnd p t s) → MSpecs bnd ps ts s
  | [], [], s, _, _ => by
    simp only [MSpecs, matchTerms]
    exact ⟨rfl, Matched.refl _ _ _ _ fun v h => by simp [HasVars] at h⟩
  | [], _ :: _, _, h, _ => by simp at h
  | _ :: _, [], _, h, _ => by simp at h
  | p :: ps, t :: ts, s, hl, ih => by
    have h1 := ih p (by simp) t s
    unfold MSpec at h1
    unfold MSpecs matchTerms
    cases hm : matchTerm bnd p t s with
    | none =>
      rw [hm] at h1
      intro s' hc hcap he
      simp only [List.map_cons, List.cons.injEq] at he
      exact h1 s' hc (fun v hv => hcap v (by simp only [HasVars]; exact .inl hv)) he.1
    | some s1 =>
      rw [hm] at h1
      obtain ⟨e1, m1⟩ := h1
      have h2 := matchTerms_spec bnd ps ts s1 (by simpa using hl) fun x hx => ih x (by simp [hx])
      unfold MSpecs at h2
      dsimp only
      cases hm2 : matchTerms bnd ps ts s1 with
      | none =>
        rw [hm2] at h2
        intro s' hc hcap he
        simp only [List.map_cons, List.cons.injEq] at he
        refine h2 s' (covers_step m1 hc fun v hv => fill_inj p (e1.trans he.1.symm) v hv) ?_ he.2
        exact fun v hv => hcap v (by simp only [HasVars]; exact .inr hv)
      | some s2 =>
        rw [hm2] at h2
        obtain ⟨e2, m2⟩ := h2
        refine ⟨?_, ?_⟩
        · rw [List.map_cons, e2]
          congr 1
          rw [← e1]
          exact (fill_congr p fun v hv => m1.stable m2 hv).symm
        · have := m1.trans m2
          simpa only [HasVars, occursAny, Bool.or_eq_true] using this

theorem matchTerm_spec (bnd : List (List Char)) : ∀ (p t : Term) (s : Subst), MSpec bnd p t s := by
  have no : ∀ (p t : Term) (s : Subst), matchTerm bnd p t s = none → (∀ s' : Subst, fill s' p ≠ t) →
      MSpec bnd p t s := by
    intro p t s h1 h2
    unfold MSpec
    rw [h1]
    intro s' _ _ he
    exact h2 _ he
  have yes : ∀ (p t : Term) (s : Subst), matchTerm bnd p t s = some s →
      (∀ v, HasVar v p → v ∈ bnd) → (∀ s', fill (maskL bnd s') p = t) → MSpec bnd p t s := by
    intro p t s h1 h2 h3
    unfold MSpec
    rw [h1]
    exact ⟨h3 s, Matched.refl _ _ _ _ fun v hv => .inl (h2 v hv)⟩
  intro p
  induction p using Term.ind with
  | hc c =>
    intro t s
    cases t with
    | const d =>
      by_cases h : c = d
      · subst h
        exact yes _ _ _ (by simp [matchTerm]) (fun v hv => by simp [HasVar] at hv) (fun _ => rfl)
      · exact no _ _ _ (by simp [matchTerm, h]) (by intro s' e; simp only [fill, Term.const.injEq] at e; exact h e)
    | _ => exact no _ _ _ (by simp [matchTerm]) (by intro s' e; simp only [fill] at e; cases e)
  | hb c =>
    intro t s
    cases t with
    | bound d =>
      by_cases h : c = d
      · subst h
        exact yes _ _ _ (by simp [matchTerm]) (fun v hv => by simp [HasVar] at hv) (fun _ => rfl)
      · exact no _ _ _ (by simp [matchTerm, h]) (by intro s' e; simp only [fill, Term.bound.injEq] at e; exact h e)
    | _ => exact no _ _ _ (by simp [matchTerm]) (by intro s' e; simp only [fill] at e; cases e)
  | hv v =>
    intro t s
    by_cases hb : v ∈ bnd
    · have hfill : ∀ s', fill (maskL bnd s') (.var v) = .var v := by
        intro s'; simp [fill, maskL, hb]
      by_cases ht : t = .var v
      · subst ht
        refine yes _ _ _ (by simp [matchTerm, hb]) (fun w hw => ?_) hfill
        simp only [HasVar] at hw; subst hw; exact hb
      · have hn : matchTerm bnd (.var v) t s = none := by
          cases t with
          | var w =>
            have : w ≠ v := by rintro rfl; exact ht rfl
            simp [matchTerm, hb, this]
          | _ => simp [matchTerm, hb]
        unfold MSpec
        rw [hn]
        intro s' _ _ he
        rw [hfill] at he
        exact ht he.symm
    · have hm : matchTerm bnd (.var v) t s = matchBind s bnd v t := by simp [matchTerm, hb]
      unfold MSpec
      rw [hm]
      unfold matchBind
      cases hv : s v with
      | some x =>
        dsimp only
        by_cases hx : x = t
        · subst hx
          rw [if_pos ((termEq_iff x x).mpr rfl)]
          refine ⟨by simp [fill, maskL, hb, hv], Matched.refl _ _ _ _ fun w hw => ?_⟩
          simp only [HasVar] at hw; subst hw
          exact .inr (by simp [hv])
        · rw [if_neg (by rw [termEq_iff]; exact hx)]
          intro s' hc _ he
          simp only [fill, maskL, hb, if_false] at he
          rw [hc v x hv] at he
          exact hx he
      | none =>
        dsimp only
        by_cases hmn : mentionsAny bnd t = true
        · rw [if_pos hmn]
          intro s' _ hcap he
          simp only [fill, maskL, hb, if_false] at he
          obtain ⟨w, hw, ho⟩ := (mentionsAny_iff bnd t).mp hmn
          have := hcap v rfl hb w hw
          rw [he, ho] at this
          cases this
        · rw [if_neg hmn]
          refine ⟨by simp [fill, maskL, hb, Subst.insert], ?_, ?_, ?_, ?_⟩
          · intro w x hw
            have : w ≠ v := by rintro rfl; rw [hv] at hw; cases hw
            simp [Subst.insert, this, hw]
          · intro w hw _
            simp only [HasVar] at hw; subst hw
            simp [Subst.insert]
          · intro w hw
            have : w ≠ v := by
              rintro rfl
              rcases hw with h | h
              · exact h rfl
              · exact hb h
            simp [Subst.insert, this]
          · intro w x hw
            by_cases hwv : w = v
            · simp only [Subst.insert, hwv, if_true, Option.some.injEq] at hw
              subst hw
              refine .inr fun u hu => ⟨fun hub => hmn ?_, hu⟩
              exact (mentionsAny_iff bnd t).mpr ⟨u, hub, hu⟩
            · simp only [Subst.insert, hwv, if_false] at hw
              exact .inl hw
  | hf f as ih =>
    intro t s
    cases t with
    | fn g bs =>
      by_cases h : f = g ∧ as.length = bs.length
      · obtain ⟨rfl, hl⟩ := h
        have h1 := matchTerms_spec bnd as bs s hl ih
        unfold MSpecs at h1
        unfold MSpec
        simp only [matchTerm, hl, and_self, if_true]
        cases hm : matchTerms bnd as bs s with
        | none =>
          rw [hm] at h1
          intro s' hc hcap he
          simp only [fill, fills_eq, Term.fn.injEq, true_and] at he
          exact h1 s' hc (fun v hv => hcap v hv) he
        | some s' =>
          rw [hm] at h1
          refine ⟨by rw [fill, fills_eq, h1.1], ?_⟩
          simpa only [HasVar, occurs] using h1.2
      · refine no _ _ _ (by simp [matchTerm, h]) ?_
        intro s' e
        simp only [fill, fills_eq, Term.fn.injEq] at e
        exact h ⟨e.1, by simpa using congrArg List.length e.2⟩
    | _ => exact no _ _ _ (by simp [matchTerm]) (by intro s' e; simp only [fill] at e; cases e)
  | hg as ih =>
    intro t s
    cases t with
    | group bs =>
      by_cases hl : as.length = bs.length
      · have h1 := matchTerms_spec bnd as bs s hl ih
        unfold MSpecs at h1
        unfold MSpec
        simp only [matchTerm, hl, if_true]
        cases hm : matchTerms bnd as bs s with
        | none =>
          rw [hm] at h1
          intro s' hc hcap he
          simp only [fill, fills_eq, Term.group.injEq] at he
          exact h1 s' hc (fun v hv => hcap v hv) he
        | some s' =>
          rw [hm] at h1
          refine ⟨by rw [fill, fills_eq, h1.1], ?_⟩
          simpa only [HasVar, occurs] using h1.2
      · refine no _ _ _ (by simp [matchTerm, hl]) ?_
        intro s' e
        simp only [fill, fills_eq, Term.group.injEq] at e
        exact hl (by simpa using congrArg List.length e)
    | _ => exact no _ _ _ (by simp [matchTerm]) (by intro s' e; simp only [fill] at e; cases e)

/-! ### Formulas -/

theorem mentions_eq_iff (w : List Char) (t : Term) : Mentions (fun u => u = w) t ↔ occurs w t = true := by
  rw [mentions_iff]
  constructor
  · rintro ⟨_, rfl, h⟩; exact h
  · intro h; exact ⟨w, rfl, h⟩

theorem mentionsSome_eq_iff (w : List Char) : ∀ ts : List Term,
    MentionsSome (fun u => u = w) ts ↔ occursAny w ts = true
  | [] => by simp [MentionsSome, occursAny]
  | t :: ts => by simp [MentionsSome, occursAny, mentions_eq_iff, mentionsSome_eq_iff w ts]

theorem fillExpr_congr : ∀ (e : QExpr) {s s' : Subst}, (∀ v, HasVarE v e → s v = s' v) →
    fillExpr s e = fillExpr s' e
  | .pred p as w, s, s', h => by
    simp only [fillExpr, fills_eq]
    congr 1
    exact List.map_congr_left fun a ha => fill_congr a fun v hv => h v ((HasVars_iff v as).mpr ⟨a, ha, hv⟩)
  | .ident a b, s, s', h => by
    simp only [fillExpr]
    rw [fill_congr a fun v hv => h v (.inl hv), fill_congr b fun v hv => h v (.inr hv)]
  | .atom p, s, s', h => rfl
  | .bin op a b, s, s', h => by
    simp only [fillExpr]
    rw [fillExpr_congr a fun v hv => h v (.inl hv), fillExpr_congr b fun v hv => h v (.inr hv)]
  | .un op a, s, s', h => by
    simp only [fillExpr]
    rw [fillExpr_congr a fun v hv => h v hv]
  | .quant q x b, s, s', h => by
    simp only [fillExpr]
    rw [fillExpr_congr b fun v hv => ?_]
    unfold without
    by_cases hx : v = x
    · simp [hx]
    · simp only [hx, if_false]; exact h v ⟨Ne.symm hx, hv⟩

theorem fillExpr_inj : ∀ (e : QExpr) {s s' : Subst}, fillExpr s e = fillExpr s' e → ∀ v, HasVarE v e →
    (s v).getD (.var v) = (s' v).getD (.var v)
  | .pred p as w, s, s', h, v, hv => by
    simp only [fillExpr, fills_eq, QExpr.pred.injEq, true_and, and_true] at h
    obtain ⟨a, ha, hv⟩ := (HasVars_iff v as).mp hv
    exact fill_inj a (List.map_inj_left.mp h a ha) v hv
  | .ident a b, s, s', h, v, hv => by
    simp only [fillExpr, QExpr.ident.injEq] at h
    rcases hv with hv | hv
    · exact fill_inj a h.1 v hv
    · exact fill_inj b h.2 v hv
  | .atom p, s, s', h, v, hv => by simp [HasVarE] at hv
  | .bin op a b, s, s', h, v, hv => by
    simp only [fillExpr, QExpr.bin.injEq, true_and] at h
    rcases hv with hv | hv
    · exact fillExpr_inj a h.1 v hv
    · exact fillExpr_inj b h.2 v hv
  | .un op a, s, s', h, v, hv => by
    simp only [fillExpr, QExpr.un.injEq, true_and] at h
    exact fillExpr_inj a h v hv
  | .quant q x b, s, s', h, v, hv => by
    simp only [fillExpr, QExpr.quant.injEq, true_and] at h
    have := fillExpr_inj b h v hv.2
    simpa [without, Ne.symm hv.1] using this

theorem without_maskL (bnd : List (List Char)) (s : Subst) (x : List Char) :
    without (maskL bnd s) x = maskL (x :: bnd) s := by
  funext v
  unfold without maskL
  by_cases hx : v = x
  · simp [hx]
  · simp [hx]

/-- The specification of matching formulas. -/
def MSpecE (bnd : List (List Char)) (p t : QExpr) (s : Subst) : Prop :=
  match matchExpr bnd p t s with
  | some s' => fillExpr (maskL bnd s') p = t ∧
      Matched bnd s s' (fun v => HasVarE v p) (fun w => FreeName w t)
  | none => NoMatch bnd s (fun v => HasVarE v p)
      (fun s' => CaptureFree (maskL bnd s') p ∧ fillExpr (maskL bnd s') p = t)

theorem matchExpr_spec : ∀ (p t : QExpr) (bnd : List (List Char)) (s : Subst), FirstOrder p →
    MSpecE bnd p t s := by
  have no : ∀ (p t : QExpr) (bnd : List (List Char)) (s : Subst), matchExpr bnd p t s = none →
      (∀ s' : Subst, fillExpr s' p ≠ t) → MSpecE bnd p t s := by
    intro p t bnd s h1 h2
    unfold MSpecE
    rw [h1]
    intro s' _ _ he
    exact h2 _ he.2
  intro p
  induction p with
  | pred n as w =>
    intro t bnd s _
    cases t with
    | pred m bs w' =>
      by_cases h : n = m ∧ as.length = bs.length ∧ w = w'
      · obtain ⟨rfl, hl, rfl⟩ := h
        have h1 := matchTerms_spec bnd as bs s hl fun a _ t s => matchTerm_spec bnd a t s
        unfold MSpecs at h1
        unfold MSpecE
        have e : matchExpr bnd (.pred n as w) (.pred n bs w) s = matchTerms bnd as bs s := by
          simp [matchExpr, hl]
        rw [e]
        cases hm : matchTerms bnd as bs s with
        | none =>
          rw [hm] at h1
          rintro s' hc hcap ⟨_, he⟩
          simp only [fillExpr, fills_eq, QExpr.pred.injEq, true_and, and_true] at he
          exact h1 s' hc hcap he
        | some s' =>
          rw [hm] at h1
          refine ⟨by rw [fillExpr, fills_eq, h1.1], ?_⟩
          simpa only [HasVarE, FreeName, mentionsSome_eq_iff] using h1.2
      · refine no _ _ _ _ (by simp [matchExpr]; tauto) ?_
        intro s' e
        simp only [fillExpr, fills_eq, QExpr.pred.injEq] at e
        exact h ⟨e.1, by simpa using congrArg List.length e.2.1, e.2.2⟩
    | _ => exact no _ _ _ _ (by simp [matchExpr]) (by intro s' e; simp only [fillExpr] at e; cases e)
  | ident a b =>
    intro t bnd s _
    cases t with
    | ident c d =>
      have h1 := matchTerm_spec bnd a c s
      unfold MSpec at h1
      unfold MSpecE
      simp only [matchExpr]
      cases hm : matchTerm bnd a c s with
      | none =>
        rw [hm] at h1
        rintro s' hc hcap ⟨_, he⟩
        simp only [fillExpr, QExpr.ident.injEq] at he
        exact h1 s' hc (fun v hv => hcap v (.inl hv)) he.1
      | some s1 =>
        rw [hm] at h1
        obtain ⟨e1, m1⟩ := h1
        have h2 := matchTerm_spec bnd b d s1
        unfold MSpec at h2
        dsimp only
        cases hm2 : matchTerm bnd b d s1 with
        | none =>
          rw [hm2] at h2
          rintro s' hc hcap ⟨_, he⟩
          simp only [fillExpr, QExpr.ident.injEq] at he
          exact h2 s' (covers_step m1 hc fun v hv => fill_inj a (e1.trans he.1.symm) v hv)
            (fun v hv => hcap v (.inr hv)) he.2
        | some s2 =>
          rw [hm2] at h2
          obtain ⟨e2, m2⟩ := h2
          refine ⟨?_, ?_⟩
          · rw [fillExpr, e2, ← fill_congr a fun v hv => m1.stable m2 hv, e1]
          · simpa only [HasVarE, FreeName, mentions_eq_iff] using m1.trans m2
    | _ => exact no _ _ _ _ (by simp [matchExpr]) (by intro s' e; simp only [fillExpr] at e; cases e)
  | atom n =>
    intro t bnd s _
    cases t with
    | atom m =>
      by_cases h : n = m
      · subst h
        unfold MSpecE
        have e : matchExpr bnd (.atom n) (.atom n) s = some s := by simp [matchExpr]
        rw [e]
        exact ⟨rfl, Matched.refl _ _ _ _ fun v hv => by simp [HasVarE] at hv⟩
      · exact no _ _ _ _ (by simp [matchExpr, h]) (by
          intro s' e; simp only [fillExpr, QExpr.atom.injEq] at e; exact h e)
    | _ => exact no _ _ _ _ (by simp [matchExpr]) (by intro s' e; simp only [fillExpr] at e; cases e)
  | bin op a b iha ihb =>
    intro t bnd s hf
    obtain ⟨hop, hfa, hfb⟩ := hf
    have hbin : ∀ e, matchExpr bnd (.bin op a b) e s = (match e with
        | .bin op' c d => if op = op' then
            (match matchExpr bnd a c s with
            | none => none
            | some s' => matchExpr bnd b d s')
          else none
        | _ => none) := by
      intro e
      cases op with
      | temporal t => exact absurd rfl (hop t)
      | _ => cases e <;> simp [matchExpr] <;> rfl
    cases t with
    | bin op' c d =>
      by_cases ho : op = op'
      · subst ho
        have h1 := iha c bnd s hfa
        unfold MSpecE at h1
        unfold MSpecE
        rw [hbin]
        simp only [if_true]
        cases hm : matchExpr bnd a c s with
        | none =>
          rw [hm] at h1
          rintro s' hc hcap ⟨hcf, he⟩
          simp only [fillExpr, QExpr.bin.injEq, true_and] at he
          exact h1 s' hc (fun v hv => hcap v (.inl hv)) ⟨hcf.1, he.1⟩
        | some s1 =>
          rw [hm] at h1
          obtain ⟨e1, m1⟩ := h1
          have h2 := ihb d bnd s1 hfb
          unfold MSpecE at h2
          dsimp only
          cases hm2 : matchExpr bnd b d s1 with
          | none =>
            rw [hm2] at h2
            rintro s' hc hcap ⟨hcf, he⟩
            simp only [fillExpr, QExpr.bin.injEq, true_and] at he
            exact h2 s' (covers_step m1 hc fun v hv => fillExpr_inj a (e1.trans he.1.symm) v hv)
              (fun v hv => hcap v (.inr hv)) ⟨hcf.2, he.2⟩
          | some s2 =>
            rw [hm2] at h2
            obtain ⟨e2, m2⟩ := h2
            refine ⟨?_, ?_⟩
            · rw [fillExpr, e2, ← fillExpr_congr a fun v hv => m1.stable m2 hv, e1]
            · simpa only [HasVarE, FreeName] using m1.trans m2
      · exact no _ _ _ _ (by rw [hbin]; simp [ho]) (by
          intro s' e; simp only [fillExpr, QExpr.bin.injEq] at e; exact ho e.1)
    | _ => exact no _ _ _ _ (by rw [hbin]) (by intro s' e; simp only [fillExpr] at e; cases e)
  | un op a iha =>
    intro t bnd s hf
    obtain ⟨rfl, hfa⟩ := hf
    cases t with
    | un op' c =>
      by_cases ho : op' = .not
      · subst ho
        have h1 := iha c bnd s hfa
        unfold MSpecE at h1
        unfold MSpecE
        simp only [matchExpr]
        cases hm : matchExpr bnd a c s with
        | none =>
          rw [hm] at h1
          rintro s' hc hcap ⟨hcf, he⟩
          simp only [fillExpr, QExpr.un.injEq, true_and] at he
          exact h1 s' hc hcap ⟨hcf, he⟩
        | some s1 =>
          rw [hm] at h1
          exact ⟨by rw [fillExpr, h1.1], h1.2⟩
      · refine no _ _ _ _ ?_ (by
          intro s' e; simp only [fillExpr, QExpr.un.injEq] at e; exact ho e.1.symm)
        cases op' with
        | not => exact absurd rfl ho
        | temporal t => simp [matchExpr]
    | _ => exact no _ _ _ _ (by simp [matchExpr]) (by intro s' e; simp only [fillExpr] at e; cases e)
  | quant q x b ih =>
    intro t bnd s hf
    obtain ⟨hq, hfb⟩ := hf
    have hquant : ∀ e, matchExpr bnd (.quant q x b) e s = (match e with
        | .quant q' y c => if q = q' ∧ x = y then matchExpr (x :: bnd) b c s else none
        | _ => none) := by
      intro e
      cases q with
      | lam => exact absurd rfl hq
      | _ => cases e <;> simp [matchExpr] <;> rfl
    cases t with
    | quant q' y c =>
      by_cases hxy : q = q' ∧ x = y
      · obtain ⟨rfl, rfl⟩ := hxy
        have h1 := ih c (x :: bnd) s hfb
        unfold MSpecE at h1
        unfold MSpecE
        rw [hquant]
        simp only [and_self, if_true]
        cases hm : matchExpr (x :: bnd) b c s with
        | none =>
          rw [hm] at h1
          rintro s' hc hcap ⟨hcf, he⟩
          simp only [fillExpr, QExpr.quant.injEq, true_and] at he
          simp only [CaptureFree] at hcf
          rw [without_maskL] at he hcf
          refine h1 s' hc ?_ ⟨hcf.2, he⟩
          intro v hv hvb w hw
          simp only [List.mem_cons, not_or] at hvb
          rcases List.mem_cons.mp hw with rfl | hw
          · have := hcf.1 v hv hvb.1
            rw [mentions_eq_iff] at this
            simpa [maskL, hvb.2] using this
          · exact hcap v ⟨Ne.symm hvb.1, hv⟩ hvb.2 w hw
        | some s1 =>
          rw [hm] at h1
          obtain ⟨e1, m1⟩ := h1
          refine ⟨by rw [fillExpr, without_maskL, e1], m1.ext, ?_, ?_, ?_⟩
          · intro v hv hvb
            exact m1.dom v hv.2 (by simp only [List.mem_cons, not_or]; exact ⟨Ne.symm hv.1, hvb⟩)
          · intro v hv
            refine m1.only v ?_
            by_cases hvx : v = x
            · exact .inr (by simp [hvx])
            · rcases hv with hv | hv
              · exact .inl fun h => hv ⟨Ne.symm hvx, h⟩
              · exact .inr (by simp [hv])
          · intro v t hv
            rcases m1.vals v t hv with h | h
            · exact .inl h
            · refine .inr fun w hw => ?_
              obtain ⟨h2, h3⟩ := h w hw
              simp only [List.mem_cons, not_or] at h2
              exact ⟨h2.2, Ne.symm h2.1, h3⟩
      · exact no _ _ _ _ (by rw [hquant]; simp [hxy]) (by
          intro s' e; simp only [fillExpr, QExpr.quant.injEq] at e; exact hxy ⟨e.1, e.2.1⟩)
    | _ => exact no _ _ _ _ (by rw [hquant]) (by intro s' e; simp only [fillExpr] at e; cases e)

end Verif.Proof
