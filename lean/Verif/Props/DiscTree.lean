import Verif.Proof.DiscLemmas
import Verif.Proof.MatchLemmas
/-!
# C89 – The discrimination tree never misses a match
-/
namespace Verif.Props
open Verif.Proof

open Classical in
/-- **C89** (exactness): after any insertions, a query returns exactly the values of the patterns that
agree with it outside variables and opaque parts, each as often as it was inserted. -/
theorem C89_exact {T : Type} (l : List (Pat × T)) (q : Pat) :
    (candidates (buildTree l) q).Perm ((l.filter fun x => decide (Align x.1 q)).map (·.2)) := by
  obtain ⟨hw, hp⟩ := build_spec l
  unfold candidates
  refine (retrieve_spec _ _ _ hw).trans ?_
  refine ((hp.filter _).map _).trans ?_
  rw [List.filter_map, List.map_map]
  have : ∀ x : Pat × T, ((fun x : List Key × T => alK (flattenPat q).length x.1 (flattenPat q)) ∘
      fun x : Pat × T => (flattenPat x.1, x.2)) x = decide (Align x.1 q) := by
    intro x
    rw [Bool.eq_iff_iff, decide_eq_true_eq, align_iff]
    simp only [Function.comp]
    rw [flattenPat_eq x.1, flattenPat_eq q, alK_iff _ _ _ (Nat.le_refl _)]
    simp [SAs]
  rw [List.filter_congr (fun x _ => this x)]
  exact .refl _

theorem fill_align {s : Subst} : ∀ p t, fill s p = t → AlignT p t := by
  intro p
  have all : ∀ as : List Term, (∀ a ∈ as, ∀ t, fill s a = t → AlignT a t) → AlignTs as (fills s as) := by
    intro as
    induction as with
    | nil => intro _; simp [fills, AlignTs]
    | cons a as ih => intro h; exact ⟨h a (by simp) _ rfl, ih fun b hb => h b (by simp [hb])⟩
  induction p using Term.ind with
  | hc c => rintro t rfl; simp [fill, AlignT]
  | hv v => intro t _; simp [AlignT]
  | hb v => rintro t rfl; simp [fill, AlignT]
  | hf f as ih => rintro t rfl; rw [fill, AlignT]; exact ⟨rfl, all as ih⟩
  | hg as ih => rintro t rfl; rw [fill, AlignT]; exact all as ih

/-- **C89** (terms): a pattern that matches the query is among the candidates, whatever else was
inserted. -/
theorem C89_term {T : Type} (l : List (Pat × T)) (p t : Term) (v : T) (hl : (.term p, v) ∈ l)
    (s : Subst) (h : matchTermPattern p t = some s) : v ∈ candidates (buildTree l) (.term t) := by
  classical
  rw [(C89_exact l (.term t)).mem_iff, List.mem_map]
  refine ⟨_, List.mem_filter.mpr ⟨hl, ?_⟩, rfl⟩
  rw [decide_eq_true_eq]
  have h1 := matchTerm_spec [] p t .empty
  unfold MSpec at h1
  unfold matchTermPattern at h
  rw [h] at h1
  exact fill_align p t h1.1

theorem alignT_refl : ∀ t, AlignT t t := by
  intro t
  have all : ∀ as : List Term, (∀ a ∈ as, AlignT a a) → AlignTs as as := by
    intro as
    induction as with
    | nil => intro _; simp [AlignTs]
    | cons a as ih => intro h; exact ⟨h a (by simp), ih fun b hb => h b (by simp [hb])⟩
  induction t using Term.ind with
  | hc c => simp [AlignT]
  | hv v => simp [AlignT]
  | hb v => simp [AlignT]
  | hf f as ih => rw [AlignT]; exact ⟨rfl, all as ih⟩
  | hg as ih => rw [AlignT]; exact all as ih

theorem match_align (bnd : List (List Char)) {p t : Term} {s s' : Subst} (h : matchTerm bnd p t s = some s') :
    AlignT p t := by
  have h1 := matchTerm_spec bnd p t s
  unfold MSpec at h1
  rw [h] at h1
  exact fill_align p t h1.1

theorem matches_align (bnd : List (List Char)) : ∀ {ps ts : List Term} {s s' : Subst},
    ps.length = ts.length → matchTerms bnd ps ts s = some s' → AlignTs ps ts
  | [], [], s, s', _, _ => by simp [AlignTs]
  | p :: ps, t :: ts, s, s', hl, h => by
    rw [matchTerms] at h
    cases h1 : matchTerm bnd p t s with
    | none => rw [h1] at h; cases h
    | some s1 =>
      rw [h1] at h
      exact ⟨match_align bnd h1, matches_align bnd (by simpa using hl) h⟩
  | [], _ :: _, _, _, hl, _ => by simp at hl
  | _ :: _, [], _, _, hl, _ => by simp at hl

theorem matchExpr_align : ∀ (p t : QExpr) (bnd : List (List Char)) (s s' : Subst),
    matchExpr bnd p t s = some s' → AlignE p t := by
  intro p
  induction p with
  | pred p as w =>
    intro t bnd s s' h
    cases t with
    | pred q bs w' =>
      rw [matchExpr] at h
      split at h
      · cases h
      · rename_i hc
        simp only [ne_eq, not_or, Classical.not_not] at hc
        rw [hc.1]
        exact .inr ⟨bs, w', rfl, matches_align bnd hc.2.1 h⟩
    | _ => simp [matchExpr] at h
  | ident a b =>
    intro t bnd s s' h
    cases t with
    | ident c d =>
      rw [matchExpr] at h
      cases h1 : matchTerm bnd a c s with
      | none => simp only [h1] at h; cases h
      | some s1 =>
        simp only [h1] at h
        exact .inr ⟨c, d, rfl, match_align bnd h1, match_align bnd h⟩
    | _ => simp [matchExpr] at h
  | atom a =>
    intro t bnd s s' h
    cases t with
    | atom b =>
      rw [matchExpr] at h
      split at h
      · rename_i e; subst e; exact .inr rfl
      · cases h
    | _ => simp [matchExpr] at h
  | bin op a b iha ihb =>
    intro t bnd s s' h
    cases op with
    | temporal o => exact .inl trivial
    | _ =>
      right
      cases t with
      | bin op' c d =>
        rw [matchExpr] at h
        · split at h
          · rename_i e
            subst e
            cases h1 : matchExpr bnd a c s with
            | none => simp only [h1] at h; cases h
            | some s1 =>
              simp only [h1] at h
              exact .inr ⟨c, d, rfl, iha c bnd s s1 h1, ihb d bnd s1 s' h⟩
          · cases h
        all_goals (intro o e; cases e)
      | _ => simp [matchExpr] at h
  | un op a ih =>
    intro t bnd s s' h
    cases op with
    | temporal o => exact .inl trivial
    | not =>
      right
      cases t with
      | un op' c =>
        cases op' with
        | temporal o => exact .inl trivial
        | not =>
          rw [matchExpr] at h
          exact .inr ⟨c, rfl, ih c bnd s s' h⟩
      | _ => simp [matchExpr] at h
  | quant q x b _ => intro t bnd s s' _; trivial

/-- **C89** (formulas): a pattern that matches the query is among the candidates. -/
theorem C89_formula {T : Type} (l : List (Pat × T)) (p t : QExpr) (v : T) (hl : (.expr p, v) ∈ l)
    (s : Subst) (h : matchExprPattern p t = some s) : v ∈ candidates (buildTree l) (.expr t) := by
  classical
  rw [(C89_exact l (.expr t)).mem_iff, List.mem_map]
  refine ⟨_, List.mem_filter.mpr ⟨hl, ?_⟩, rfl⟩
  rw [decide_eq_true_eq]
  exact matchExpr_align p t [] .empty s h

/-- Two patterns of three are candidates for `f(c, a)`: `f(x, a)` and `y`; `f(x, x)` is one as well
though it does not match. -/
example :
    let l := [(Pat.term (.fn ['f'] [.var ['x'], .const ['a']]), 1), (.term (.var ['y']), 2),
      (.term (.fn ['f'] [.var ['x'], .const ['b']]), 3), (.term (.fn ['f'] [.var ['x'], .var ['x']]), 4)]
    candidates (buildTree l) (.term (.fn ['f'] [.const ['c'], .const ['a']])) = [1, 4, 2] ∧
    (matchTermPattern (.fn ['f'] [.var ['x'], .const ['a']]) (.fn ['f'] [.const ['c'], .const ['a']])).isSome ∧
    (matchTermPattern (.fn ['f'] [.var ['x'], .var ['x']]) (.fn ['f'] [.const ['c'], .const ['a']])).isNone :=
  ⟨by decide +kernel, rfl, rfl⟩

theorem flats_tail {k : Key} {rest : List Key} : ∀ {ps : List Skel}, flats ps = k :: rest →
    ∃ p ps' qs, ps = p :: ps' ∧ rest = flats qs
  | [], h => by simp [flats] at h
  | .star :: ps, h => by
    simp only [flats, flat, List.singleton_append, List.cons.injEq] at h
    exact ⟨_, ps, ps, rfl, h.2.symm⟩
  | .node s as :: ps, h => by
    rw [flats_node] at h
    simp only [List.cons.injEq] at h
    exact ⟨_, ps, as ++ ps, rfl, h.2.symm⟩

/-- **C89** (no panic): at every position of a flattened query the end of the subterm that starts there
is in range. -/
theorem C89_jumps (q : Pat) (pre rest : List Key) (k : Key) (h : flattenPat q = pre ++ k :: rest) :
    ∃ r, jumpKeys 1 (k :: rest) = some r := by
  rw [flattenPat_eq] at h
  generalize [skelP q] = ps at h
  induction pre generalizing ps with
  | nil =>
    rw [List.nil_append] at h
    obtain ⟨p, ps', _, rfl, _⟩ := flats_tail h
    exact ⟨_, by rw [← h]; exact jump_one p ps'⟩
  | cons a pre ih =>
    rw [List.cons_append] at h
    obtain ⟨_, _, qs, _, e⟩ := flats_tail h
    exact ih qs e.symm

/-- **C89** (separation) is false: the documentation says that term patterns and formula patterns in one
tree never answer each other's queries, but the term pattern `x` answers every query on formulas. -/
theorem C89_cross_fails :
    candidates (buildTree [(Pat.term (.var ['x']), 1)]) (.expr (.atom ['p'])) = [1] := by decide +kernel

end Verif.Props
