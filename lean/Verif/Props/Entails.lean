import Verif.Sat.Entails
import Verif.Props.SatCert
import Verif.Props.CnfKeys
/-!
# C96, C97: the propositional entry points, end to end

Translation (C23), search (C94) and certificate check (C95) put together: `cdcl_entails`,
`entails_certified` and `find_model`, for every behaviour of the search heuristics.

Specification: `Expr.eval` (Proof/CnfLemmas.lean), the truth of a formula given the truth of its atoms;
`Propositional`, `LettersOnly` (Props/Cnf.lean), `PlainExpr`, `Symmetric` (Props/CnfKeys.lean).
-/

namespace Verif.Props
open Verif.Proof Verif.Sat

private theorem loaded (s : Cnf) : SatReached s.numVars s.clauses (intoSolver s) :=
  SatReached.start (n := s.numVars) (F := s.clauses) (intoSolver s).limit (intoSolver s).reduceOn

/-- Specification: the premises entail the goal, for valuations of the atoms in which identity is symmetric. -/
def Entail (ps : List Expr) (goal : Expr) : Prop :=
  ∀ v : Expr → Bool, Symmetric v → (∀ p ∈ ps, p.eval v = true) → goal.eval v = true

private theorem range {ps : List Expr} {goal : Expr} {s s' : Cnf} (h : Cnf.fromPremises ps = some s)
    (h' : s.assertNeg goal = some s') : ∀ c ∈ s'.clauses, ∀ l ∈ c, l.var < s'.numVars := by
  have hv := byKey_spec (v := fun _ => false) (fun _ _ _ _ _ => rfl)
  have a := assertAll_spec hv new_wf h
  have b := assert_spec hv a.wf h'
  exact b.wf.clauses

private theorem plain_propositional {e : Expr} (h : PlainExpr e) : Propositional e := by
  induction e with
  | pred => trivial
  | ident => trivial
  | atom => trivial
  | other => exact h
  | not p ih => exact ih h
  | and p q ihp ihq => exact ⟨ihp h.1, ihq h.2⟩
  | or p q ihp ihq => exact ⟨ihp h.1, ihq h.2⟩
  | implies p q ihp ihq => exact ⟨ihp h.1, ihq h.2⟩
  | iff p q ihp ihq => exact ⟨ihp h.1, ihq h.2⟩

private theorem premises_total {ps : List Expr} (h : ∀ p ∈ ps, Propositional p) (s : Cnf) :
    ∃ s', Cnf.assertAll ps s = some s' := by
  induction ps generalizing s with
  | nil => exact ⟨s, rfl⟩
  | cons p ps ih =>
    obtain ⟨s1, h1⟩ := (C23_encodable p (h p (by simp)) s).2
    rw [Cnf.assertAll, h1]
    exact ih (fun q hq => h q (List.mem_cons_of_mem _ hq)) s1

private theorem clauses_total {ps : List Expr} {goal : Expr} (hps : ∀ p ∈ ps, Propositional p) (hg : Propositional goal) :
    ∃ s s', Cnf.fromPremises ps = some s ∧ s.assertNeg goal = some s' := by
  obtain ⟨s, hs⟩ := premises_total hps Cnf.new
  obtain ⟨s', hs'⟩ := (C23_encodable _ (negate_propositional hg) s).2
  exact ⟨s, s', hs, hs'⟩

private theorem letters_propositional {e : Expr} (h : LettersOnly e) : Propositional e := by
  induction e with
  | pred => exact absurd h (by simp [LettersOnly])
  | ident => exact absurd h (by simp [LettersOnly])
  | atom => trivial
  | other => exact absurd h (by simp [LettersOnly])
  | not p ih => exact ih h
  | and p q ihp ihq => exact ⟨ihp h.1, ihq h.2⟩
  | or p q ihp ihq => exact ⟨ihp h.1, ihq h.2⟩
  | implies p q ihp ihq => exact ⟨ihp h.1, ihq h.2⟩
  | iff p q ihp ihq => exact ⟨ihp h.1, ihq h.2⟩

/-- What `entails_certified` returns, for the translation it makes. -/
private theorem certified_cases {ps : List Expr} {goal : Expr} {s s' : Cnf} (hs : Cnf.fromPremises ps = some s)
    (hs' : s.assertNeg goal = some s') {chs : List (Choice × Option Bool)} {r : Option Proof.Verdict}
    (h : certifiedEntails chs ps goal = .value r) :
    (r = some .entailed ∧ ¬ Satisfiable s'.clauses) ∨ (r = some .notEntailed ∧ Satisfiable s'.clauses) := by
  have hr := range hs hs'
  have hv := C94_solve_partial hr (.inl (loaded s')) chs
  have hc := C95_solve hr (.inl (loaded s')) chs
  unfold certifiedEntails at h
  rw [hs] at h
  simp only at h
  unfold certifiedFrom at h
  rw [hs'] at h
  simp only at h
  revert h hv hc
  rcases (intoSolver s').solve chs with ⟨v, S⟩
  cases v with
  | sat mdl =>
    intro h hv _
    cases h
    exact .inr ⟨rfl, _, (hv.1 mdl rfl).2⟩
  | unsat =>
    intro h hv hc
    simp only [(hc rfl).2] at h
    cases h
    exact .inl ⟨rfl, hv.2 rfl⟩
  | budget => intro h; cases h
  | pending => intro h; cases h
  | panic => intro h; cases h

/-- C96: the certified verdict is exactly right. Over predicates, functions, identities and letters with plain
names, whatever the heuristics do, a call of `entails_certified` that returns has returned `Entailed` if the
premises entail the goal and `NotEntailed` if they do not; it never fails closed. Missing from the
full statement: that it returns (`C94_solve_panics_fails`), and names with punctuation (`C23_alias_fails`). -/
theorem C96_certified_partial (ps : List Expr) (goal : Expr) (hps : ∀ p ∈ ps, PlainExpr p) (hg : PlainExpr goal)
    (chs : List (Choice × Option Bool)) (r : Option Proof.Verdict) (h : certifiedEntails chs ps goal = .value r) :
    (r = some .entailed ∧ Entail ps goal) ∨ (r = some .notEntailed ∧ ¬ Entail ps goal) := by
  obtain ⟨s, s', hs, hs'⟩ := clauses_total (fun p hp => plain_propositional (hps p hp)) (plain_propositional hg)
  have hiff := C23_plain ps goal hps hg s s' hs hs'
  rcases certified_cases hs hs' h with ⟨h1, h2⟩ | ⟨h1, h2⟩
  · exact .inl ⟨h1, hiff.1 h2⟩
  · exact .inr ⟨h1, fun he => hiff.2 he h2⟩

/-- C96 for formulas over propositional letters with any names and for arbitrary valuations. -/
theorem C96_certified_letters_partial (ps : List Expr) (goal : Expr) (hps : ∀ p ∈ ps, LettersOnly p) (hg : LettersOnly goal)
    (chs : List (Choice × Option Bool)) (r : Option Proof.Verdict) (h : certifiedEntails chs ps goal = .value r) :
    (r = some .entailed ∧ ∀ v : Expr → Bool, (∀ p ∈ ps, p.eval v = true) → goal.eval v = true) ∨
    (r = some .notEntailed ∧ ∃ v : Expr → Bool, (∀ p ∈ ps, p.eval v = true) ∧ goal.eval v = false) := by
  obtain ⟨s, s', hs, hs'⟩ := clauses_total (fun p hp => letters_propositional (hps p hp)) (letters_propositional hg)
  have hiff := C23_letters ps goal hps hg s s' hs hs'
  rcases certified_cases hs hs' h with ⟨h1, h2⟩ | ⟨h1, h2⟩
  · exact .inl ⟨h1, hiff.1 h2⟩
  · refine .inr ⟨h1, Classical.byContradiction fun hno => hiff.2 (fun v hp => ?_) h2⟩
    cases hg : goal.eval v with
    | true => rfl
    | false => exact absurd ⟨v, hp, hg⟩ hno

/-- C96: the uncertified `cdcl_entails` gives the same answers. -/
theorem C96_cdcl_entails_partial (ps : List Expr) (goal : Expr) (hps : ∀ p ∈ ps, PlainExpr p) (hg : PlainExpr goal)
    (chs : List (Choice × Option Bool)) (r : Option Bool) (h : cdclEntails chs ps goal = .value r) :
    (r = some true ∧ Entail ps goal) ∨ (r = some false ∧ ¬ Entail ps goal) := by
  obtain ⟨s, s', hs, hs'⟩ := clauses_total (fun p hp => plain_propositional (hps p hp)) (plain_propositional hg)
  have hiff := C23_plain ps goal hps hg s s' hs hs'
  have hv := C94_solve_partial (range hs hs') (.inl (loaded s')) chs
  unfold cdclEntails at h
  rw [hs] at h
  simp only at h
  rw [hs'] at h
  simp only at h
  revert h hv
  cases ((intoSolver s').solve chs).1 with
  | sat mdl =>
    intro h hv
    cases h
    exact .inr ⟨rfl, fun he => hiff.2 he ⟨_, (hv.1 mdl rfl).2⟩⟩
  | unsat =>
    intro h hv
    cases h
    exact .inl ⟨rfl, hiff.1 (hv.2 rfl)⟩
  | budget => intro h; cases h
  | pending => intro h; cases h
  | panic => intro h; cases h

/-! ## C97 -/

/-- The key of a letter. -/
private def lkey (n : List Char) : List Char := ['a', 't', 'o', 'm', ':'] ++ n

/-- Every letter of `e` has a variable. -/
private def Named (e : Expr) (s : Cnf) : Prop := ∀ n ∈ lettersOf e, ∃ x, s.atomOf.get? (lkey n) = some x

private theorem fv : ∀ (e : Expr) (k : List Char), atomKey e = some k →
    (fun _ => false : Expr → Bool) e = (fun _ => false : List Char → Bool) k := fun _ _ _ => rfl

private theorem Named.grow {e : Expr} {s s' : Cnf} (h : Named e s) (g : Proof.Grows s s') : Named e s' := by
  intro n hn
  obtain ⟨x, hx⟩ := h n hn
  exact ⟨x, g.atm _ _ hx⟩

private theorem named_atom {e : Expr} {k : List Char} (hk : atomKey e = some k) {s : Cnf} (w : CnfWF s) :
    Named e (s.atomVar k).2 := by
  intro n hn
  cases e with
  | atom m =>
    simp only [lettersOf, List.mem_singleton] at hn
    simp only [atomKey, Option.some.injEq] at hk
    subst hn hk
    exact ⟨_, (atomVar_spec w _ fun _ => false).2.2.2⟩
  | pred => cases hn
  | ident => cases hn
  | _ => simp [atomKey] at hk

private theorem named_encode {e : Expr} : ∀ {s s' : Cnf} {l : Lit}, CnfWF s → Cnf.encode e s = some (l, s') → Named e s' := by
  have hatom : ∀ {e : Expr} {s s' : Cnf} {l : Lit}, CnfWF s → (match atomKey e with
      | none => none
      | some k => some ((⟨(s.atomVar k).1, true⟩ : Lit), (s.atomVar k).2)) = some (l, s') → Named e s' := by
    intro e s s' l w h
    split at h
    · cases h
    · rename_i k hk
      simp only [Option.some.injEq, Prod.mk.injEq] at h
      rw [← h.2]
      exact named_atom hk w
  have hgate : ∀ {p q r : Expr} {s s1 s2 s' : Cnf} {a b a' b' l : Lit} {op : Op}, CnfWF s → Cnf.encode p s = some (a, s1) →
      Cnf.encode q s1 = some (b, s2) → s2.gate op a' b' = (l, s') → a'.var < s2.numVars → b'.var < s2.numVars →
      Named p s1 → Named q s2 → lettersOf r = lettersOf p ++ lettersOf q → Named r s' := by
    intro p q r s s1 s2 s' a b a' b' l op w h1 h2 h3 ha hb hp hq hr
    have p1 := encode_spec fv w h1
    have p2 := encode_spec fv p1.wf h2
    have g := (gate_spec p2.wf (op := op) ha hb fun _ => false).2.1
    rw [h3] at g
    intro n hn
    rw [hr, List.mem_append] at hn
    rcases hn with hn | hn
    · exact (hp.grow (p2.grows.trans g)) n hn
    · exact (hq.grow g) n hn
  have hrange : ∀ {p q : Expr} {s s1 s2 : Cnf} {a b : Lit}, CnfWF s → Cnf.encode p s = some (a, s1) →
      Cnf.encode q s1 = some (b, s2) → CnfWF s1 ∧ a.var < s2.numVars ∧ b.var < s2.numVars := by
    intro p q s s1 s2 a b w h1 h2
    have p1 := encode_spec fv w h1
    have p2 := encode_spec fv p1.wf h2
    exact ⟨p1.wf, Nat.lt_of_lt_of_le (p1.range a (by simp)) p2.grows.le, p2.range b (by simp)⟩
  induction e with
  | pred n a wd => intro s s' l w h; exact hatom w h
  | ident a b => intro s s' l w h; exact hatom w h
  | atom n => intro s s' l w h; exact hatom w h
  | other t => intro s s' l w h; exact hatom w h
  | not p ih =>
    intro s s' l w h
    rw [Cnf.encode] at h
    split at h
    · cases h
    · rename_i a s1 h1
      simp only [Option.some.injEq, Prod.mk.injEq] at h
      rw [← h.2]
      exact ih w h1
  | and p q ihp ihq | or p q ihp ihq | implies p q ihp ihq | iff p q ihp ihq =>
    intro s s' l w h
    rw [Cnf.encode] at h
    split at h
    · cases h
    · rename_i a s1 h1
      split at h
      · cases h
      · rename_i b s2 h2
        simp only [Option.some.injEq] at h
        obtain ⟨w1, ra, rb⟩ := hrange w h1 h2
        first
          | exact hgate w h1 h2 h (order2_var ra rb).1 (order2_var ra rb).2 (ihp w h1) (ihq w1 h2) rfl
          | exact hgate w h1 h2 h ra rb (ihp w h1) (ihq w1 h2) rfl

private theorem letters_negate (e : Expr) : lettersOf (negateExpr e) = lettersOf e := by
  unfold negateExpr
  split <;> rfl

private theorem letters_shape (e : Expr) :
    match e.shape with
    | .two a b => lettersOf e = lettersOf a ++ lettersOf b
    | .one a => lettersOf e = lettersOf a
    | .enc => True := by
  unfold Expr.shape
  split
  · rename_i h
    split at h <;> simp at h
    · obtain ⟨rfl, rfl⟩ := h; rfl
    · obtain ⟨rfl, rfl⟩ := h; rw [letters_negate]; rfl
    · obtain ⟨rfl, rfl⟩ := h; rw [letters_negate, letters_negate]; rfl
  · rename_i h
    split at h <;> simp at h
    subst h; rfl
  · trivial

private theorem named_clauseLits : ∀ {n : Nat} {e : Expr} {s s' : Cnf} {ls : List Lit}, CnfWF s →
    Cnf.clauseLitsF n s e = some (ls, s') → Named e s' := by
  intro n
  induction n with
  | zero => intro e s s' ls _ h; simp [Cnf.clauseLitsF] at h
  | succ n ih =>
    intro e s s' ls w h
    have hsh := letters_shape e
    rw [Cnf.clauseLitsF] at h
    split at h
    · rename_i l s1 h1
      simp only [Option.some.injEq, Prod.mk.injEq] at h
      rw [← h.2]
      unfold Cnf.litOfAtom at h1
      split at h1
      · split at h1
        · cases h1
        · rename_i p k hk
          simp only [Option.some.injEq, Prod.mk.injEq] at h1
          rw [← h1.2]
          exact named_atom hk w
      · split at h1
        · cases h1
        · rename_i k hk
          simp only [Option.some.injEq, Prod.mk.injEq] at h1
          rw [← h1.2]
          exact named_atom hk w
    · split at h
      · rename_i a b hab
        rw [hab] at hsh
        simp only at hsh
        split at h
        · cases h
        · rename_i u s1 h1
          split at h
          · cases h
          · rename_i x s2 h2
            simp only [Option.some.injEq, Prod.mk.injEq] at h
            rw [← h.2]
            have p1 := clauseLitsF_spec fv w h1
            have p2 := clauseLitsF_spec fv p1.wf h2
            intro n hn
            rw [hsh, List.mem_append] at hn
            rcases hn with hn | hn
            · exact ((ih w h1).grow p2.grows) n hn
            · exact ih p1.wf h2 n hn
      · rename_i a ha
        rw [ha] at hsh
        simp only at hsh
        intro n hn
        rw [hsh] at hn
        exact ih w h n hn
      · split at h
        · cases h
        · rename_i l s1 h1
          simp only [Option.some.injEq, Prod.mk.injEq] at h
          rw [← h.2]
          exact named_encode w h1

private theorem named_push {e : Expr} {s : Cnf} {c : Clause} (h : Named e s) : Named e (s.pushClause c) := by
  intro n hn
  rw [Cnf.pushClause_atomOf]
  exact h n hn

private theorem named_assert {e : Expr} : ∀ {s s' : Cnf}, CnfWF s → Cnf.assert e s = some s' → Named e s' := by
  have single : ∀ {e : Expr} {s s' : Cnf}, CnfWF s → (match s.clauseLits e with
      | none => none
      | some (u, s1) => some (s1.pushClause u)) = some s' → Named e s' := by
    intro e s s' w h
    split at h
    · cases h
    · rename_i u s1 h1
      simp only [Option.some.injEq] at h
      rw [← h]
      exact named_push (named_clauseLits w h1)
  induction e with
  | pred n a wd => intro s s' w h; exact single w h
  | ident a b => intro s s' w h; exact single w h
  | atom n => intro s s' w h; exact single w h
  | other t => intro s s' w h; exact single w h
  | not p _ => intro s s' w h; exact single w h
  | or p q _ _ => intro s s' w h; exact single w h
  | iff p q _ _ => intro s s' w h; exact single w h
  | and p q ihp ihq =>
    intro s s' w h
    rw [Cnf.assert] at h
    split at h
    · cases h
    · rename_i s1 h1
      have a1 := assert_spec fv w h1
      have a2 := assert_spec fv a1.wf h
      intro n hn
      rcases List.mem_append.1 (show n ∈ lettersOf p ++ lettersOf q from hn) with hn | hn
      · exact ((ihp w h1).grow a2.grows) n hn
      · exact ihq a1.wf h n hn
  | implies p q _ _ =>
    intro s s' w h
    rw [Cnf.assert] at h
    split at h
    · cases h
    · rename_i u s1 h1
      split at h
      · cases h
      · rename_i x s2 h2
        simp only [Option.some.injEq] at h
        rw [← h]
        have p1 := clauseLitsF_spec fv w h1
        have p2 := clauseLitsF_spec fv p1.wf h2
        intro n hn
        rcases List.mem_append.1 (show n ∈ lettersOf p ++ lettersOf q from hn) with hn | hn
        · rw [← letters_negate] at hn
          exact (named_push ((named_clauseLits w h1).grow p2.grows)) n hn
        · exact (named_push (named_clauseLits p1.wf h2)) n hn

/-- Specification: the letters that occur in a formula. -/
def Occurs (n : List Char) : Expr → Prop
  | .atom m => n = m
  | .not p => Occurs n p
  | .and p q | .or p q | .implies p q | .iff p q => Occurs n p ∨ Occurs n q
  | _ => False

private theorem occurs_letters (n : List Char) (e : Expr) : n ∈ lettersOf e ↔ Occurs n e := by
  induction e with
  | atom m => simp [lettersOf, Occurs]
  | not p ih => exact ih
  | and p q ihp ihq => simp [lettersOf, Occurs, ihp, ihq]
  | or p q ihp ihq => simp [lettersOf, Occurs, ihp, ihq]
  | implies p q ihp ihq => simp [lettersOf, Occurs, ihp, ihq]
  | iff p q ihp ihq => simp [lettersOf, Occurs, ihp, ihq]
  | pred => simp [lettersOf, Occurs]
  | ident => simp [lettersOf, Occurs]
  | other => simp [lettersOf, Occurs]

private theorem leChars_lt : ∀ {a b : List Char}, leChars a b = true → a ≠ b → a < b
  | [], [], _, h => absurd rfl h
  | [], _ :: _, _, _ => List.nil_lt_cons _ _
  | _ :: _, [], h, _ => by simp [leChars] at h
  | x :: xs, y :: ys, h, hne => by
    rw [leChars] at h
    rw [List.cons_lt_cons_iff]
    split at h
    · rename_i hlt; exact .inl hlt
    · split at h
      · cases h
      · rename_i h1 h2
        have e : x = y := Char.toNat_inj.1 (by omega)
        subst e
        exact .inr ⟨rfl, leChars_lt h fun e => hne (by rw [e])⟩

private theorem leChars_trans : ∀ {a b c : List Char}, leChars a b = true → leChars b c = true → leChars a c = true
  | [], _, _, _, _ => rfl
  | _ :: _, [], _, h, _ => by simp [leChars] at h
  | _ :: _, _ :: _, [], _, h => by simp [leChars] at h
  | x :: xs, y :: ys, z :: zs, h1, h2 => by
    rw [leChars] at h1 h2 ⊢
    split at h1
    · split at h2
      · rw [if_pos (by omega)]
      · split at h2
        · cases h2
        · rw [if_pos (by omega)]
    · split at h1
      · cases h1
      · split at h2
        · rw [if_pos (by omega)]
        · split at h2
          · cases h2
          · rw [if_neg (by omega), if_neg (by omega)]
            exact leChars_trans h1 h2

private theorem dedup_strict : ∀ {l : List (List Char)}, l.Pairwise (fun a b => leChars a b = true) →
    (Proof.dedupAdj l).Pairwise (· < ·)
  | [], _ => .nil
  | [_], _ => .cons (by simp) .nil
  | x :: y :: r, h => by
    rw [Proof.dedupAdj]
    rw [List.pairwise_cons] at h
    split
    · exact dedup_strict h.2
    · rename_i hne
      refine .cons ?_ (dedup_strict h.2)
      intro z hz
      have hz' := mem_dedupAdj.1 hz
      refine leChars_lt (h.1 z hz') ?_
      rintro rfl
      have hxy := h.1 y (by simp)
      rcases List.mem_cons.1 hz' with e | hz'
      · exact hne e
      · have := (List.pairwise_cons.1 h.2).1 x hz'
        exact hne (leChars_antisymm hxy this)

private theorem names_mem (e : Expr) (n : List Char) : n ∈ atomNames e ↔ Occurs n e := by
  unfold atomNames
  rw [mem_dedupAdj, (sortBy_perm _ _).mem_iff, occurs_letters]

private theorem names_sorted (e : Expr) : (atomNames e).Pairwise (· < ·) :=
  dedup_strict (sortBy_pairwise (le := leChars) (fun _ _ _ h1 h2 => leChars_trans h1 h2) leChars_total _)

/-- Each occurring letter is bound once, to its variable's value. -/
private theorem decode_spec {e : Expr} {s : Cnf} (w : CnfWF s) (hn : Named e s) {mdl : List Bool} (hl : mdl.length = s.numVars) :
    (decodeModel s mdl e).map Prod.fst = atomNames e ∧
    ∀ n b, (n, b) ∈ decodeModel s mdl e ↔ Occurs n e ∧ ∃ x, s.atomOf.get? (lkey n) = some x ∧ mdl.getD x false = b := by
  have hval : ∀ n, Occurs n e → ∃ x, s.atomOf.get? (lkey n) = some x ∧ mdl[x]? = some (mdl.getD x false) := by
    intro n ho
    obtain ⟨x, hx⟩ := hn n ((occurs_letters n e).2 ho)
    have := w.atoms _ _ hx
    exact ⟨x, hx, by rw [List.getD_eq_getElem?_getD, List.getElem?_eq_getElem (by omega)]; rfl⟩
  have hmap : decodeModel s mdl e = (atomNames e).map fun n => (n, mdl.getD ((s.atomOf.get? (lkey n)).getD 0) false) := by
    unfold decodeModel
    have : ∀ l : List (List Char), (∀ n ∈ l, Occurs n e) → (l.filterMap fun n =>
        match s.atomOf.get? (['a', 't', 'o', 'm', ':'] ++ n) with
        | none => none
        | some v => (mdl[v]?).map fun b => (n, b)) =
        l.map fun n => (n, mdl.getD ((s.atomOf.get? (lkey n)).getD 0) false) := by
      intro l
      induction l with
      | nil => intro _; rfl
      | cons n l ih =>
        intro h
        obtain ⟨x, h1, h2⟩ := hval n (h n (by simp))
        have h1' : s.atomOf.get? (['a', 't', 'o', 'm', ':'] ++ n) = some x := h1
        rw [List.filterMap_cons, List.map_cons, ih fun m hm => h m (List.mem_cons_of_mem _ hm)]
        simp only [h1', h2, Option.map_some, h1, Option.getD_some]
    exact this _ fun n h => (names_mem e n).1 h
  constructor
  · rw [hmap, List.map_map]
    exact List.map_id _
  · intro n b
    rw [hmap, List.mem_map]
    constructor
    · rintro ⟨m, hm, e1⟩
      simp only [Prod.mk.injEq] at e1
      obtain ⟨rfl, e2⟩ := e1
      have ho := (names_mem e m).1 hm
      obtain ⟨x, h1, _⟩ := hval m ho
      rw [h1] at e2
      exact ⟨ho, x, h1, e2⟩
    · rintro ⟨ho, x, h1, h2⟩
      exact ⟨n, (names_mem e n).2 ho, by rw [h1]; simpa using h2⟩

private theorem assert_one {e : Expr} {s : Cnf} (h : Cnf.assert e Cnf.new = some s) : Cnf.fromPremises [e] = some s := by
  unfold Cnf.fromPremises
  rw [Cnf.assertAll, h]
  rfl

/-- C97: `find_model` on a formula over propositional letters, whatever the heuristics do. `Unsat` is only said
of a formula false under every valuation; `Sat` carries each letter of the formula exactly once, in order of name,
and the formula is true under every valuation that agrees; and the formula is not `Unsupported`. Missing from
the full statement: that the call returns (`C94_solve_panics_fails`). -/
theorem C97_find_model_partial (e : Expr) (he : LettersOnly e) (chs : List (Choice × Option Bool)) (r : ModelOutcome)
    (h : findModel chs e = .value r) :
    (r = .unsat ∧ ∀ v : Expr → Bool, e.eval v = false) ∨
    (∃ bs, r = .sat bs ∧ (bs.map Prod.fst).Pairwise (· < ·) ∧ (∀ n, n ∈ bs.map Prod.fst ↔ Occurs n e) ∧
      ∀ v : Expr → Bool, (∀ n b, (n, b) ∈ bs → v (.atom n) = b) → e.eval v = true) := by
  obtain ⟨s, hs⟩ := (C23_encodable e (letters_propositional he) Cnf.new).2
  have w := (assert_spec fv new_wf hs).wf
  have hv := C94_solve_partial w.clauses (.inl (loaded s)) chs
  have hiff := C23_models_iff_partial [e] s (assert_one hs)
  unfold findModel at h
  rw [hs] at h
  simp only at h
  revert h hv
  cases ((intoSolver s).solve chs).1 with
  | unsat =>
    intro h hv
    cases h
    refine .inl ⟨rfl, fun v => ?_⟩
    cases hev : e.eval v with
    | false => rfl
    | true =>
      obtain ⟨τ, hτ, _⟩ := (hiff (letterValuation v) (letterValuation_respects v)).1 (by
        intro p hp
        simp only [List.mem_singleton] at hp
        subst hp
        rw [letterValuation_eval v he]; exact hev)
      exact absurd ⟨τ, hτ⟩ (hv.2 rfl)
  | sat mdl =>
    intro h hv
    cases h
    obtain ⟨hlen, hmod⟩ := hv.1 mdl rfl
    obtain ⟨d1, d2⟩ := decode_spec w (named_assert new_wf hs) hlen
    refine .inr ⟨_, rfl, by rw [d1]; exact names_sorted e, by rw [d1]; exact names_mem e, ?_⟩
    intro v hag
    have key : ∀ p : Expr, LettersOnly p → (∀ n, Occurs n p → Occurs n e) →
        p.eval v = p.eval (decoded s fun x => mdl.getD x false) := by
      intro p
      induction p with
      | pred => intro h; exact absurd h (by simp [LettersOnly])
      | ident => intro h; exact absurd h (by simp [LettersOnly])
      | other => intro h; exact absurd h (by simp [LettersOnly])
      | atom n =>
        intro _ ho
        have hon := ho n rfl
        obtain ⟨x, hx⟩ := named_assert new_wf hs n ((occurs_letters n e).2 hon)
        have := hag n (mdl.getD x false) ((d2 n _).2 ⟨hon, x, hx, rfl⟩)
        have hx' : s.atomOf.get? (['a', 't', 'o', 'm', ':'] ++ n) = some x := hx
        show v (.atom n) = decoded s _ (.atom n)
        rw [this]
        unfold decoded Cnf.atomValue
        simp only [atomKey, hx']
        rfl
      | not p ih => intro h ho; rw [Expr.eval, Expr.eval, ih h ho]
      | and p q ihp ihq =>
        intro h ho
        rw [Expr.eval, Expr.eval, ihp h.1 fun n hn => ho n (.inl hn), ihq h.2 fun n hn => ho n (.inr hn)]
      | or p q ihp ihq =>
        intro h ho
        rw [Expr.eval, Expr.eval, ihp h.1 fun n hn => ho n (.inl hn), ihq h.2 fun n hn => ho n (.inr hn)]
      | implies p q ihp ihq =>
        intro h ho
        rw [Expr.eval, Expr.eval, ihp h.1 fun n hn => ho n (.inl hn), ihq h.2 fun n hn => ho n (.inr hn)]
      | iff p q ihp ihq =>
        intro h ho
        rw [Expr.eval, Expr.eval, ihp h.1 fun n hn => ho n (.inl hn), ihq h.2 fun n hn => ho n (.inr hn)]
    rw [key e he fun _ hn => hn]
    refine (hiff _ (decoded_respects s _)).2 ⟨_, hmod, ?_⟩ e (by simp)
    intro x b hb
    unfold decoded
    rw [hb]; rfl
  | budget => intro h; cases h
  | pending => intro h; cases h
  | panic => intro h; cases h

/-- C97: a formula built from predicates, identities and letters by the connectives is never `Unsupported`. -/
theorem C97_supported (e : Expr) (chs : List (Choice × Option Bool)) (hp : Propositional e) :
    findModel chs e ≠ .value .unsupported := by
  obtain ⟨s, hs⟩ := (C23_encodable e hp Cnf.new).2
  unfold findModel
  rw [hs]
  simp only
  cases ((intoSolver s).solve chs).1 <;> simp

/-! ### Cases -/

private def fst : Choice := ⟨fun _ => 0, fun _ => false, fun _ => true, false⟩
private def chs20 : List (Choice × Option Bool) := List.replicate 20 (fst, none)

/-- From `p ∨ q`, `p → r`, `q → r` follows `r`; `p` does not. -/
example : certifiedEntails chs20 [.or pE qE, .implies pE rE, .implies qE rE] rE = .value (some .entailed) ∧
    certifiedEntails chs20 [.or pE qE, .implies pE rE, .implies qE rE] pE = .value (some .notEntailed) ∧
    cdclEntails chs20 [.or pE qE, .implies pE rE, .implies qE rE] rE = .value (some true) := by
  refine ⟨?_, ?_, ?_⟩ <;> decide +kernel

example : (∀ p ∈ [Expr.or pE qE, .implies pE rE, .implies qE rE], PlainExpr p) ∧ PlainExpr rE := by
  simp [PlainExpr, pE, qE, rE]

/-- Models of `(p ↔ q) ∧ ¬(q ∧ r)`, and of a contradiction none. -/
example : findModel chs20 (.and (.iff qE pE) (.not (.and qE rE))) =
      .value (.sat [(['p'], false), (['q'], false), (['r'], false)]) ∧
    findModel chs20 (.and (.or rE pE) (.not (.and pE (.not qE)))) =
      .value (.sat [(['p'], true), (['q'], true), (['r'], false)]) ∧
    findModel chs20 (.and (.iff pE qE) (.iff pE (.not qE))) = .value .unsat := by
  refine ⟨?_, ?_, ?_⟩ <;> decide +kernel

end Verif.Props
