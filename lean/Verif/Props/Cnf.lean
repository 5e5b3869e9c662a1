import Verif.Proof.CnfLemmas
import Verif.Props.Rup
/-!
# C23: the clausal translation preserves meaning

Specification: `Expr.eval` (Proof/CnfLemmas.lean) is the truth table meaning of a formula under a
truth value for every atom; `Models` and `Satisfiable` are the meaning of clauses.
-/

namespace Verif.Props
open Verif.Proof

/-- Atoms the translation identifies (same key) get the same truth value. -/
def RespectsKeys (v : Expr → Bool) : Prop :=
  ∀ a b k, atomKey a = some k → atomKey b = some k → v a = v b

open Classical in
/-- The truth values by key. -/
noncomputable def byKey (v : Expr → Bool) (k : List Char) : Bool :=
  if h : ∃ e, atomKey e = some k then v h.choose else false

theorem byKey_spec {v : Expr → Bool} (hv : RespectsKeys v) (e : Expr) (k : List Char)
    (h : atomKey e = some k) : v e = byKey v k := by
  unfold byKey
  have hex : ∃ e, atomKey e = some k := ⟨e, h⟩
  rw [dif_pos hex]
  exact hv _ _ _ h hex.choose_spec

/-- The decoded valuation of an assignment of the variables. -/
def decoded (s : Cnf) (τ : Nat → Bool) (e : Expr) : Bool := (s.atomValue e τ).getD false

theorem decoded_respects (s : Cnf) (τ : Nat → Bool) : RespectsKeys (decoded s τ) := by
  intro a b k ha hb
  unfold decoded Cnf.atomValue
  rw [ha, hb]

theorem atoms_of_decoded {s : Cnf} {τ : Nat → Bool} {v : Expr → Bool} (hv : RespectsKeys v)
    (h : ∀ e b, s.atomValue e τ = some b → v e = b)
    (hk : ∀ k x, s.atomOf.get? k = some x → ∃ e, atomKey e = some k) : Atoms (byKey v) s τ := by
  intro k x hx
  obtain ⟨e, he⟩ := hk k x hx
  rw [← byKey_spec hv e k he]
  exact (h e (τ x) (by unfold Cnf.atomValue; rw [he]; simp only [hx])).symm

/-- An assignment gives, through the keys, a truth value to every key. -/
def keyTruth (s : Cnf) (τ : Nat → Bool) (k : List Char) : Bool :=
  match s.atomOf.get? k with
  | none => false
  | some x => τ x

theorem keyTruth_atoms (s : Cnf) (τ : Nat → Bool) : Atoms (keyTruth s τ) s τ := by
  intro k x h
  unfold keyTruth
  rw [h]

theorem decoded_keyTruth (s : Cnf) (τ : Nat → Bool) (e : Expr) (k : List Char)
    (h : atomKey e = some k) : decoded s τ e = keyTruth s τ k := by
  unfold decoded Cnf.atomValue keyTruth
  rw [h]
  simp only
  split <;> simp_all

/-- **C23**: the premises are true under a valuation exactly when the clauses have a satisfying
assignment that agrees with it on every translated atom. So every model of the formulas extends to
one of the clauses and every model of the clauses decodes to one of the formulas.
Missing: valuations that tell apart two atoms with the same key, for which it is false
(`C23_alias_fails`). -/
theorem C23_models_iff_partial (ps : List Expr) (s : Cnf) (h : Cnf.fromPremises ps = some s)
    (v : Expr → Bool) (hv : RespectsKeys v) :
    (∀ p ∈ ps, p.eval v = true) ↔
      ∃ τ, Models τ s.clauses ∧ ∀ e b, s.atomValue e τ = some b → v e = b := by
  constructor
  · intro hp
    have a := assertAll_spec (byKey_spec hv) new_wf h
    obtain ⟨τ, _, hm, hat⟩ := a.ext (by simpa using hp) (fun _ => false)
      (fun c hc => by simp [Cnf.new] at hc) (fun k x hk => by simp [Cnf.new] at hk)
    refine ⟨τ, hm, ?_⟩
    intro e b hb
    unfold Cnf.atomValue at hb
    split at hb
    · cases hb
    · rename_i k hk
      split at hb
      · cases hb
      · rename_i x hx
        simp only [Option.some.injEq] at hb
        rw [← hb, hat _ _ hx]
        exact byKey_spec hv _ _ hk
  · rintro ⟨τ, hm, hat⟩
    -- the keys allocated so far get their value from the assignment, the others from `v`
    let κ : List Char → Bool := fun k =>
      match s.atomOf.get? k with
      | none => byKey v k
      | some x => τ x
    have hκ : ∀ e k, atomKey e = some k → v e = κ k := by
      intro e k hk
      show v e = (match s.atomOf.get? k with | none => byKey v k | some x => τ x)
      split
      · exact byKey_spec hv e k hk
      · rename_i x hx
        exact hat e (τ x) (by unfold Cnf.atomValue; rw [hk]; simp only [hx])
    have hatoms : Atoms κ s τ := by
      intro k x hx
      show τ x = (match s.atomOf.get? k with | none => byKey v k | some x => τ x)
      rw [hx]
    have a := assertAll_spec hκ new_wf h
    have := a.sound τ hm hatoms
    simpa using this

/-- **C23**: refuting the clauses of the premises and the negated goal is the same as the premises
entailing the goal.  Missing: as in `C23_models_iff_partial`. -/
theorem C23_refutation_iff_partial (ps : List Expr) (goal : Expr) (s s' : Cnf)
    (h : Cnf.fromPremises ps = some s) (h' : s.assertNeg goal = some s') :
    ¬ Satisfiable s'.clauses ↔
      ∀ v, RespectsKeys v → (∀ p ∈ ps, p.eval v = true) → goal.eval v = true := by
  constructor
  · intro hun v hv hp
    cases hg : goal.eval v with
    | true => rfl
    | false =>
      exfalso
      apply hun
      have a := assertAll_spec (byKey_spec hv) new_wf h
      have b := assert_spec (byKey_spec hv) a.wf h'
      obtain ⟨τ, _, hm, hat⟩ := a.ext (by simpa using hp) (fun _ => false)
        (fun c hc => by simp [Cnf.new] at hc) (fun k x hk => by simp [Cnf.new] at hk)
      obtain ⟨τ', _, hm', _⟩ := b.ext (by rw [eval_negate, hg]; rfl) τ hm hat
      exact ⟨τ', hm'⟩
  · rintro hent ⟨τ, hm⟩
    have a := assertAll_spec (decoded_keyTruth s' τ) new_wf h
    have b := assert_spec (decoded_keyTruth s' τ) a.wf h'
    have hp := a.sound τ (b.grows.models hm) (b.grows.atoms (keyTruth_atoms s' τ))
    have hg := b.sound τ hm (keyTruth_atoms s' τ)
    rw [eval_negate] at hg
    have := hent (decoded s' τ) (decoded_respects s' τ) (by simpa using hp)
    rw [this] at hg
    simp at hg

/-- **C23** with **C21**: an `Entailed` verdict is right whatever the search engine did, provided the
original clauses it hands to the checker are clauses it was given (up to order and repetition of
literals).  Missing: as in `C23_models_iff_partial`. -/
theorem C23_entailed_verdict_partial (engine : Nat → List Clause → Engine) (ps : List Expr)
    (goal : Expr)
    (honest : ∀ n cs original learned, engine n cs = .unsat original learned →
      ∀ c ∈ original, ∃ d ∈ cs, ∀ l, l ∈ d ↔ l ∈ c)
    (h : entailsCertified engine ps goal = some (some .entailed))
    (v : Expr → Bool) (hv : RespectsKeys v) (hp : ∀ p ∈ ps, p.eval v = true) :
    goal.eval v = true := by
  unfold entailsCertified at h
  split at h
  · cases h
  · rename_i s hs
    unfold certifiedFromCnf at h
    split at h
    · cases h
    · rename_i s1 hs1
      split at h
      · cases h
      · rename_i original learned he
        split at h
        · cases h
        · rename_i hc
          have hun := C21_refutation_sound _ _ _ hc
          refine (C23_refutation_iff_partial ps goal s s1 hs hs1).mp ?_ v hv hp
          rintro ⟨τ, hm⟩
          apply hun
          refine ⟨τ, fun c hcm => ?_⟩
          obtain ⟨d, hd, hk⟩ := honest _ _ _ _ he c hcm
          exact (holds_congr τ hk).mp (hm d hd)
        · cases h

/-- Specification: built from the connectives, predicates, identities and letters. -/
def Propositional : Expr → Prop
  | .and a b | .or a b | .implies a b | .iff a b => Propositional a ∧ Propositional b
  | .not a => Propositional a
  | .other _ => False
  | _ => True

theorem encode_total : ∀ {e : Expr} (_ : Propositional e) (s : Cnf), ∃ r, Cnf.encode e s = some r := by
  intro e
  induction e with
  | pred n a w => intro _ s; exact ⟨_, rfl⟩
  | ident a b =>
    intro _ s
    simp only [Cnf.encode, atomKey]
    by_cases h : leChars (termKey a) (termKey b) <;> simp [h]
  | atom n => intro _ s; exact ⟨_, rfl⟩
  | other t => intro h; exact absurd h (by simp [Propositional])
  | not p ih =>
    intro h s
    obtain ⟨r, hr⟩ := ih h s
    rw [Cnf.encode, hr]
    exact ⟨_, rfl⟩
  | and p q ihp ihq =>
    intro h s
    obtain ⟨r, hr⟩ := ihp h.1 s
    obtain ⟨r2, hr2⟩ := ihq h.2 r.2
    rw [Cnf.encode, hr]
    simp only [hr2]
    exact ⟨_, rfl⟩
  | or p q ihp ihq =>
    intro h s
    obtain ⟨r, hr⟩ := ihp h.1 s
    obtain ⟨r2, hr2⟩ := ihq h.2 r.2
    rw [Cnf.encode, hr]
    simp only [hr2]
    exact ⟨_, rfl⟩
  | implies p q ihp ihq =>
    intro h s
    obtain ⟨r, hr⟩ := ihp h.1 s
    obtain ⟨r2, hr2⟩ := ihq h.2 r.2
    rw [Cnf.encode, hr]
    simp only [hr2]
    exact ⟨_, rfl⟩
  | iff p q ihp ihq =>
    intro h s
    obtain ⟨r, hr⟩ := ihp h.1 s
    obtain ⟨r2, hr2⟩ := ihq h.2 r.2
    rw [Cnf.encode, hr]
    simp only [hr2]
    exact ⟨_, rfl⟩

theorem size_pos (e : Expr) : 0 < e.size := by cases e <;> simp [Expr.size]

theorem negate_size (e : Expr) : (negateExpr e).size ≤ e.size + 1 := by
  unfold negateExpr
  split
  · simp [Expr.size]; omega
  · simp [Expr.size]

theorem negate_propositional {e : Expr} (h : Propositional e) : Propositional (negateExpr e) := by
  unfold negateExpr
  split
  · exact h
  · exact h

theorem shape_props (e : Expr) (hp : Propositional e) :
    match e.shape with
    | .two a b => Propositional a ∧ Propositional b ∧ a.size < e.size ∧ b.size < e.size
    | .one a => Propositional a ∧ a.size < e.size
    | .enc => True := by
  unfold Expr.shape
  split
  · rename_i h
    split at h <;> simp at h
    · obtain ⟨rfl, rfl⟩ := h
      exact ⟨hp.1, hp.2, by simp [Expr.size]; omega, by simp [Expr.size]; omega⟩
    · rename_i a b
      obtain ⟨rfl, rfl⟩ := h
      have h1 := negate_size a
      have h2 := size_pos b
      exact ⟨negate_propositional hp.1, hp.2, by simp [Expr.size]; omega, by simp [Expr.size]; omega⟩
    · rename_i a b
      obtain ⟨rfl, rfl⟩ := h
      have h1 := negate_size a
      have h2 := size_pos b
      have h3 := negate_size b
      have h4 := size_pos a
      have hp' : Propositional a ∧ Propositional b := hp
      exact ⟨negate_propositional hp'.1, negate_propositional hp'.2, by simp [Expr.size]; omega,
        by simp [Expr.size]; omega⟩
  · rename_i h
    split at h <;> simp at h
    subst h
    exact ⟨hp, by simp [Expr.size]; omega⟩
  · trivial

theorem clauseLitsF_total : ∀ (n : Nat) {e : Expr} (_ : Propositional e) (_ : e.size ≤ n) (s : Cnf),
    ∃ r, Cnf.clauseLitsF n s e = some r := by
  intro n
  induction n with
  | zero => intro e _ h; have := size_pos e; omega
  | succ n ih =>
    intro e hp hn s
    have hsh := shape_props e hp
    rw [Cnf.clauseLitsF]
    split
    · exact ⟨_, rfl⟩
    · split
      · rename_i a b hab
        rw [hab] at hsh
        obtain ⟨p1, p2, s1, s2⟩ := hsh
        obtain ⟨r, hr⟩ := ih p1 (by omega) s
        obtain ⟨r2, hr2⟩ := ih p2 (by omega) r.2
        rw [hr]
        simp only [hr2]
        exact ⟨_, rfl⟩
      · rename_i a ha
        rw [ha] at hsh
        exact ih hsh.1 (by omega) s
      · obtain ⟨r, hr⟩ := encode_total hp s
        rw [hr]
        exact ⟨_, rfl⟩

/-- **C23**: every propositional formula is accepted, at every nesting depth and in every state. -/
theorem C23_encodable (e : Expr) (h : Propositional e) (s : Cnf) :
    (∃ r, Cnf.encode e s = some r) ∧ ∃ s', Cnf.assert e s = some s' := by
  refine ⟨encode_total h s, ?_⟩
  have single : ∀ (e : Expr), Propositional e → ∀ s : Cnf, ∃ s', (match s.clauseLits e with
      | none => none
      | some (u, s1) => some (s1.pushClause u)) = some s' := by
    intro e h s
    obtain ⟨r, hr⟩ := clauseLitsF_total e.size h (Nat.le_refl _) s
    have hr' : s.clauseLits e = some r := hr
    rw [hr']
    exact ⟨_, rfl⟩
  induction e generalizing s with
  | pred n a w => exact single _ h s
  | ident a b => exact single _ h s
  | atom n => exact single _ h s
  | other t => exact absurd h (by simp [Propositional])
  | not p _ => exact single _ h s
  | or p q _ _ => exact single _ h s
  | iff p q _ _ => exact single _ h s
  | and p q ihp ihq =>
    obtain ⟨s1, h1⟩ := ihp h.1 s
    obtain ⟨s2, h2⟩ := ihq h.2 s1
    rw [Cnf.assert, h1]
    exact ⟨s2, h2⟩
  | implies p q _ _ =>
    obtain ⟨r, hr⟩ := clauseLitsF_total _ (negate_propositional h.1) (Nat.le_refl _) s
    obtain ⟨r2, hr2⟩ := clauseLitsF_total _ h.2 (Nat.le_refl _) r.2
    have e1 : s.clauseLits (negateExpr p) = some r := hr
    have e2 : r.2.clauseLits q = some r2 := hr2
    rw [Cnf.assert, e1]
    simp only [e2]
    exact ⟨_, rfl⟩

/-- Specification: formulas over propositional letters only. -/
def LettersOnly : Expr → Prop
  | .and a b | .or a b | .implies a b | .iff a b => LettersOnly a ∧ LettersOnly b
  | .not a => LettersOnly a
  | .atom _ => True
  | _ => False

/-- The valuation with the given values on letters, made uniform over keys. -/
def letterValuation (v : Expr → Bool) (e : Expr) : Bool :=
  match atomKey e with
  | some ('a' :: 't' :: 'o' :: 'm' :: ':' :: name) => v (.atom name)
  | _ => false

theorem letterValuation_respects (v : Expr → Bool) : RespectsKeys (letterValuation v) := by
  intro a b k ha hb
  unfold letterValuation
  rw [ha, hb]

theorem letterValuation_eval (v : Expr → Bool) : ∀ {e : Expr}, LettersOnly e →
    e.eval (letterValuation v) = e.eval v := by
  intro e
  induction e with
  | pred => intro h; exact absurd h (by simp [LettersOnly])
  | ident => intro h; exact absurd h (by simp [LettersOnly])
  | other => intro h; exact absurd h (by simp [LettersOnly])
  | atom n => intro _; rfl
  | not p ih => intro h; rw [Expr.eval, Expr.eval, ih h]
  | and p q ihp ihq => intro h; rw [Expr.eval, Expr.eval, ihp h.1, ihq h.2]
  | or p q ihp ihq => intro h; rw [Expr.eval, Expr.eval, ihp h.1, ihq h.2]
  | implies p q ihp ihq => intro h; rw [Expr.eval, Expr.eval, ihp h.1, ihq h.2]
  | iff p q ihp ihq => intro h; rw [Expr.eval, Expr.eval, ihp h.1, ihq h.2]

/-- **C23** for formulas over propositional letters, with no restriction on valuations: the
translation of premises and negated goal exists, and it is unsatisfiable exactly when every valuation
making the premises true makes the goal true. -/
theorem C23_letters (ps : List Expr) (goal : Expr) (hps : ∀ p ∈ ps, LettersOnly p)
    (hg : LettersOnly goal) (s s' : Cnf) (h : Cnf.fromPremises ps = some s)
    (h' : s.assertNeg goal = some s') :
    ¬ Satisfiable s'.clauses ↔
      ∀ v : Expr → Bool, (∀ p ∈ ps, p.eval v = true) → goal.eval v = true := by
  rw [C23_refutation_iff_partial ps goal s s' h h']
  constructor
  · intro hall v hp
    have := hall (letterValuation v) (letterValuation_respects v)
      (fun p hm => by rw [letterValuation_eval v (hps p hm)]; exact hp p hm)
    rwa [letterValuation_eval v hg] at this
  · intro hall v _ hp
    exact hall v hp

/-- The predicate `P` at a named world. -/
def predAt (w : List Char) : Expr := .pred ['P'] [] (some w)

/-- **C23** fails when atoms are told apart by their world: from `P` at world `a` the clauses for the
goal `P` at world `b` are unsatisfiable, although a valuation makes the premise true and the goal
false.  Likewise for a predicate of two arguments and one of one argument whose name has a comma,
and for two different groups. -/
theorem C23_alias_fails :
    (∃ s s', Cnf.fromPremises [predAt ['a']] = some s ∧ s.assertNeg (predAt ['b']) = some s' ∧
      ¬ Satisfiable s'.clauses) ∧
    (∃ v : Expr → Bool, (predAt ['a']).eval v = true ∧ (predAt ['b']).eval v = false) ∧
    atomKey (.pred ['R'] [.const ['x'], .const ['y']] none) =
      atomKey (.pred ['R'] [.const ['x', ',', 'y']] none) ∧
    atomKey (.pred ['R'] [.group [.const ['x']]] none) =
      atomKey (.pred ['R'] [.group [.const ['y']]] none) := by
  refine ⟨⟨_, _, rfl, rfl, ?_⟩, ⟨fun e => match e with
    | .pred _ _ (some ['a']) => true
    | _ => false, rfl, rfl⟩, rfl, rfl⟩
  apply C21_refutation_sound 1 _ []
  decide

/-- Identity is symmetric for the translation. -/
theorem leChars_total : ∀ a b : List Char, leChars a b = true ∨ leChars b a = true
  | [], _ => Or.inl rfl
  | _ :: _, [] => Or.inr rfl
  | x :: xs, y :: ys => by
    rw [leChars, leChars]
    by_cases h1 : x.toNat < y.toNat
    · simp [h1]
    · by_cases h2 : y.toNat < x.toNat
      · simp [h2]
      · simp only [h1, h2, if_false]
        exact leChars_total xs ys

theorem leChars_antisymm : ∀ {a b : List Char}, leChars a b = true → leChars b a = true → a = b
  | [], [], _, _ => rfl
  | [], _ :: _, _, h => by simp [leChars] at h
  | _ :: _, [], h, _ => by simp [leChars] at h
  | x :: xs, y :: ys, h1, h2 => by
    rw [leChars] at h1 h2
    by_cases h3 : x.toNat < y.toNat
    · simp only [h3, if_true] at h2
      rw [if_neg (by omega)] at h2
      cases h2
    · by_cases h4 : y.toNat < x.toNat
      · rw [if_neg h3, if_pos h4] at h1; cases h1
      · rw [if_neg h3, if_neg h4] at h1
        rw [if_neg h4, if_neg h3] at h2
        have e : x = y := by
          apply Char.ext
          apply UInt32.toNat_inj.mp
          have : x.toNat = y.toNat := by omega
          exact this
        rw [e, leChars_antisymm h1 h2]

/-- **C23**: an identity and its mirror image are one atom. -/
theorem C23_identity_symmetric (a b : Term) : atomKey (.ident a b) = atomKey (.ident b a) := by
  simp only [atomKey]
  by_cases h1 : leChars (termKey a) (termKey b) = true
  · by_cases h2 : leChars (termKey b) (termKey a) = true
    · rw [leChars_antisymm h1 h2]
    · simp [h1, h2]
  · have h2 := (leChars_total (termKey a) (termKey b)).resolve_left h1
    simp [h1, h2]

/-- A non-trivial case: from `p ∧ q → r`, `¬¬p`, `q` follows `r`; the translation is refuted by unit
propagation, and the premises alone are satisfiable. -/
def pE : Expr := .atom ['p']
def qE : Expr := .atom ['q']
def rE : Expr := .atom ['r']

example :
    (∀ p ∈ [Expr.implies (.and pE qE) rE, .not (.not pE), qE], LettersOnly p) ∧ LettersOnly rE ∧
    ∃ s s', Cnf.fromPremises [.implies (.and pE qE) rE, .not (.not pE), qE] = some s ∧
      s.assertNeg rE = some s' ∧ s'.clauses.length = 4 ∧
      checkRefutation s'.numVars s'.clauses [] = some true ∧
      checkRefutation s.numVars s.clauses [] = some false := by
  refine ⟨by simp [LettersOnly, pE, qE, rE], by simp [LettersOnly, rE], _, _, rfl, rfl, ?_⟩
  decide +kernel

/-- Auxiliary variables, the structural cache and commutativity: `(p ∧ q) ∨ r`, then `(q ∧ p) ↔ r`
share the auxiliary for the conjunction: three atoms and two auxiliaries. -/
example : (Cnf.fromPremises [.or (.and pE qE) rE, .iff (.and qE pE) rE]).map (·.numVars) = some 5 := by
  decide +kernel

/-- The verdict is reached: an engine that learns nothing is enough here. -/
example : entailsCertified (fun _ cs => .unsat cs []) [.implies pE qE, pE] qE = some (some .entailed) := by
  decide +kernel

example : RespectsKeys (fun _ => true) := fun _ _ _ _ _ => rfl

end Verif.Props
