import Verif.Proof.Cnf
import Verif.Proof.PrLemmas
/-!
# Lemmas about the clausal translation
-/

namespace Verif.Proof

/-- Specification: truth of a formula, given the truth of its atoms (and of anything the translation
does not look into). -/
def Expr.eval (v : Expr → Bool) : Expr → Bool
  | .and a b => a.eval v && b.eval v
  | .or a b => a.eval v || b.eval v
  | .implies a b => !a.eval v || b.eval v
  | .iff a b => a.eval v == b.eval v
  | .not a => !a.eval v
  | e => v e

theorem eval_negate (v : Expr → Bool) (e : Expr) : (negateExpr e).eval v = !e.eval v := by
  unfold negateExpr
  split
  · rw [Expr.eval]; simp
  · rw [Expr.eval]

theorem dedupAdj_head {A : Type} [DecidableEq A] : ∀ (x : A) (r : List A),
    ∃ t, dedupAdj (x :: r) = x :: t
  | x, [] => ⟨[], rfl⟩
  | x, y :: r => by
    rw [dedupAdj]
    split
    · rename_i h; subst h; exact dedupAdj_head x r
    · exact ⟨_, rfl⟩

theorem sameVarAdj_dedup : ∀ {l : Clause}, sameVarAdj (dedupAdj l) = true →
    ∃ a ∈ l, ∃ b ∈ l, a ≠ b ∧ a.var = b.var
  | [], h => by simp [dedupAdj, sameVarAdj] at h
  | [x], h => by simp [dedupAdj, sameVarAdj] at h
  | x :: y :: r, h => by
    rw [dedupAdj] at h
    split at h
    · obtain ⟨a, ha, b, hb, h1⟩ := sameVarAdj_dedup h
      exact ⟨a, List.mem_cons_of_mem _ ha, b, List.mem_cons_of_mem _ hb, h1⟩
    · rename_i hne
      obtain ⟨t, ht⟩ := dedupAdj_head y r
      rw [ht, sameVarAdj, Bool.or_eq_true] at h
      rcases h with h | h
      · exact ⟨x, by simp, y, by simp, hne, by simpa using h⟩
      · rw [← ht] at h
        obtain ⟨a, ha, b, hb, h1⟩ := sameVarAdj_dedup h
        exact ⟨a, List.mem_cons_of_mem _ ha, b, List.mem_cons_of_mem _ hb, h1⟩

theorem mem_normal {c : Clause} {l : Lit} : l ∈ dedupAdj (sortBy leLit c) ↔ l ∈ c := by
  rw [mem_dedupAdj, (sortBy_perm _ _).mem_iff]

theorem tautology_holds {c : Clause} (τ : Nat → Bool) (h : ∃ a ∈ c, ∃ b ∈ c, a ≠ b ∧ a.var = b.var) :
    Clause.holds τ c := by
  obtain ⟨a, ha, b, hb, hne, hv⟩ := h
  by_cases hh : a.holds τ
  · exact ⟨a, ha, hh⟩
  · refine ⟨b, hb, ?_⟩
    have e : b = a.negated := by
      cases a with
      | mk va pa =>
        cases b with
        | mk vb pb =>
          simp at hv; subst hv
          cases pa <;> cases pb <;> simp [Lit.negated] at hne ⊢
    rw [e]
    exact (Lit.holds_negated τ a).mpr hh

namespace Cnf

theorem pushClause_models {s : Cnf} {c : Clause} {τ : Nat → Bool} :
    Models τ (s.pushClause c).clauses ↔ Models τ s.clauses ∧ Clause.holds τ c := by
  unfold pushClause
  split
  · rename_i h
    have := tautology_holds τ (sameVarAdj_dedup h)
    rw [holds_congr τ (fun l => (sortBy_perm leLit c).mem_iff)] at this
    simp [this]
  · split
    · rename_i h
      constructor
      · intro hm
        exact ⟨hm, (holds_congr τ (fun l => mem_normal)).mp (hm _ h)⟩
      · exact fun h => h.1
    · rw [models_append, models_singleton, holds_congr τ (fun l => mem_normal)]

theorem pushClause_numVars (s : Cnf) (c : Clause) : (s.pushClause c).numVars = s.numVars := by
  unfold pushClause; split <;> (try split) <;> rfl
theorem pushClause_atomOf (s : Cnf) (c : Clause) : (s.pushClause c).atomOf = s.atomOf := by
  unfold pushClause; split <;> (try split) <;> rfl
theorem pushClause_cache (s : Cnf) (c : Clause) : (s.pushClause c).cache = s.cache := by
  unfold pushClause; split <;> (try split) <;> rfl

theorem pushClause_mem {s : Cnf} {c d : Clause} (h : d ∈ s.clauses) : d ∈ (s.pushClause c).clauses := by
  unfold pushClause
  split
  · exact h
  · split
    · exact h
    · exact List.mem_append_left _ h

theorem pushClause_range {s : Cnf} {c : Clause} {n : Nat} (h : ∀ d ∈ s.clauses, InRange n d)
    (hc : InRange n c) : ∀ d ∈ (s.pushClause c).clauses, InRange n d := by
  unfold pushClause
  split
  · exact h
  · split
    · exact h
    · intro d hd
      rcases List.mem_append.mp hd with hd | hd
      · exact h d hd
      · rw [List.mem_singleton.mp hd]
        intro l hl
        exact hc l (mem_normal.mp hl)

theorem pushAll_models {cs : List Clause} : ∀ {s : Cnf} {τ : Nat → Bool},
    Models τ (s.pushAll cs).clauses ↔ Models τ s.clauses ∧ Models τ cs := by
  induction cs with
  | nil => intro s τ; simp [pushAll, Models]
  | cons c cs ih =>
    intro s τ
    rw [pushAll, ih, pushClause_models, models_cons, and_assoc]

theorem pushAll_frame {cs : List Clause} : ∀ {s : Cnf}, (s.pushAll cs).numVars = s.numVars ∧
    (s.pushAll cs).atomOf = s.atomOf ∧ (s.pushAll cs).cache = s.cache ∧
    (∀ d ∈ s.clauses, d ∈ (s.pushAll cs).clauses) ∧
    (∀ n, (∀ d ∈ s.clauses, InRange n d) → (∀ c ∈ cs, InRange n c) →
      ∀ d ∈ (s.pushAll cs).clauses, InRange n d) := by
  induction cs with
  | nil => intro s; simp [pushAll]
  | cons c cs ih =>
    intro s
    obtain ⟨h1, h2, h3, h4, h5⟩ := ih (s := s.pushClause c)
    rw [pushAll]
    refine ⟨by rw [h1, pushClause_numVars], by rw [h2, pushClause_atomOf],
      by rw [h3, pushClause_cache], fun d hd => h4 d (pushClause_mem hd), ?_⟩
    intro n hn hc
    exact h5 n (pushClause_range hn (hc c (by simp))) (fun d hd => hc d (List.mem_cons_of_mem _ hd))

end Cnf

/-- Meaning of a gate. -/
def Op.holds (P Q : Prop) : Op → Prop
  | .and => P ∧ Q
  | .or => P ∨ Q
  | .impl => P → Q
  | .iff => (P ↔ Q)

theorem gateClauses_models {x a b : Lit} {op : Op} {τ : Nat → Bool} :
    Models τ (Cnf.gateClauses x a b op) ↔ (x.holds τ ↔ op.holds (a.holds τ) (b.holds τ)) := by
  cases op <;>
    simp only [Cnf.gateClauses, models_cons, Clause.holds, Op.holds, List.mem_cons, List.not_mem_nil,
      or_false, exists_eq_or_imp, exists_eq_left, Lit.holds_negated] <;>
    simp only [Models, List.not_mem_nil] <;>
    by_cases h1 : x.holds τ <;> by_cases h2 : a.holds τ <;> by_cases h3 : b.holds τ <;>
    simp [h1, h2, h3]

/-- The assignment agrees with the atom truth values `κ` (given by key). -/
def Atoms (κ : List Char → Bool) (s : Cnf) (τ : Nat → Bool) : Prop :=
  ∀ k x, s.atomOf.get? k = some x → τ x = κ k

structure CnfWF (s : Cnf) : Prop where
  atoms : ∀ k x, s.atomOf.get? k = some x → x < s.numVars
  inj : ∀ k k' x, s.atomOf.get? k = some x → s.atomOf.get? k' = some x → k = k'
  clauses : ∀ c ∈ s.clauses, InRange s.numVars c
  cacheR : ∀ op a b x, s.cache.get? (op, a, b) = some x → x.var < s.numVars
  cacheM : ∀ op a b x, s.cache.get? (op, a, b) = some x → ∀ τ, Models τ s.clauses →
    (x.holds τ ↔ op.holds (a.holds τ) (b.holds τ))

structure Grows (s s' : Cnf) : Prop where
  le : s.numVars ≤ s'.numVars
  cl : ∀ c ∈ s.clauses, c ∈ s'.clauses
  atm : ∀ k x, s.atomOf.get? k = some x → s'.atomOf.get? k = some x

/-- Every assignment of the smaller translation extends to the larger one. -/
def Extends (κ : List Char → Bool) (s s' : Cnf) : Prop :=
  ∀ τ, Models τ s.clauses → Atoms κ s τ →
    ∃ τ', (∀ v, v < s.numVars → τ' v = τ v) ∧ Models τ' s'.clauses ∧ Atoms κ s' τ'

theorem Grows.refl (s : Cnf) : Grows s s := ⟨Nat.le_refl _, fun _ h => h, fun _ _ h => h⟩

theorem Grows.trans {s t u : Cnf} (h1 : Grows s t) (h2 : Grows t u) : Grows s u :=
  ⟨Nat.le_trans h1.le h2.le, fun c h => h2.cl c (h1.cl c h), fun k x h => h2.atm k x (h1.atm k x h)⟩

theorem Extends.refl {κ : List Char → Bool} (s : Cnf) : Extends κ s s :=
  fun τ h1 h2 => ⟨τ, fun _ _ => rfl, h1, h2⟩

theorem Extends.trans {κ : List Char → Bool} {s t u : Cnf} (g : Grows s t) (h1 : Extends κ s t)
    (h2 : Extends κ t u) : Extends κ s u := by
  intro τ hm ha
  obtain ⟨τ1, e1, m1, a1⟩ := h1 τ hm ha
  obtain ⟨τ2, e2, m2, a2⟩ := h2 τ1 m1 a1
  refine ⟨τ2, ?_, m2, a2⟩
  intro v hv
  rw [e2 v (Nat.lt_of_lt_of_le hv g.le), e1 v hv]

theorem Grows.models {s t : Cnf} (g : Grows s t) {τ : Nat → Bool} (h : Models τ t.clauses) :
    Models τ s.clauses := fun c hc => h c (g.cl c hc)

theorem Grows.atoms {κ : List Char → Bool} {s t : Cnf} (g : Grows s t) {τ : Nat → Bool}
    (h : Atoms κ t τ) : Atoms κ s τ := fun k x hk => h k x (g.atm k x hk)

theorem clause_agree {c : Clause} {n : Nat} {τ τ' : Nat → Bool} (hr : InRange n c)
    (h : ∀ v, v < n → τ' v = τ v) : Clause.holds τ' c ↔ Clause.holds τ c := by
  unfold Clause.holds
  constructor
  · rintro ⟨l, hl, hh⟩; refine ⟨l, hl, ?_⟩; unfold Lit.holds at *; rw [← h _ (hr l hl)]; exact hh
  · rintro ⟨l, hl, hh⟩; refine ⟨l, hl, ?_⟩; unfold Lit.holds at *; rw [h _ (hr l hl)]; exact hh

theorem models_agree {cs : List Clause} {n : Nat} {τ τ' : Nat → Bool} (hr : ∀ c ∈ cs, InRange n c)
    (h : ∀ v, v < n → τ' v = τ v) (hm : Models τ cs) : Models τ' cs :=
  fun c hc => (clause_agree (hr c hc) h).mpr (hm c hc)

/-- One variable changed. -/
def update (τ : Nat → Bool) (n : Nat) (b : Bool) (v : Nat) : Bool := if v = n then b else τ v

theorem update_below {τ : Nat → Bool} {n : Nat} {b : Bool} : ∀ v, v < n → update τ n b v = τ v := by
  intro v hv
  unfold update
  rw [if_neg (by omega)]

theorem atomVar_spec {s : Cnf} (w : CnfWF s) (k : List Char) (κ : List Char → Bool) :
    CnfWF (s.atomVar k).2 ∧ Grows s (s.atomVar k).2 ∧ Extends κ s (s.atomVar k).2 ∧
      (s.atomVar k).2.atomOf.get? k = some (s.atomVar k).1 := by
  unfold Cnf.atomVar
  split
  · rename_i v hv
    exact ⟨w, Grows.refl s, Extends.refl s, hv⟩
  · rename_i hnone
    have hget : ∀ k' x, (s.atomOf.insert k s.numVars).get? k' = some x →
        (k' = k ∧ x = s.numVars) ∨ s.atomOf.get? k' = some x := by
      intro k' x h
      rw [HMap.get?_insert] at h
      split at h
      · rename_i e
        simp only [Option.some.injEq] at h
        exact Or.inl ⟨e, h.symm⟩
      · exact Or.inr h
    refine ⟨⟨?_, ?_, ?_, ?_, ?_⟩, ⟨?_, ?_, ?_⟩, ?_, ?_⟩
    · intro k' x h
      rcases hget k' x h with ⟨_, rfl⟩ | h
      · exact Nat.lt_succ_self _
      · exact Nat.lt_succ_of_lt (w.atoms _ _ h)
    · intro k1 k2 x h1 h2
      rcases hget _ _ h1 with ⟨e1, e2⟩ | h1
      · rcases hget _ _ h2 with ⟨e3, _⟩ | h2
        · rw [e1, e3]
        · have := w.atoms _ _ h2; omega
      · rcases hget _ _ h2 with ⟨e3, e4⟩ | h2
        · have := w.atoms _ _ h1; omega
        · exact w.inj _ _ _ h1 h2
    · intro c hc l hl
      exact Nat.lt_succ_of_lt (w.clauses c hc l hl)
    · intro op a b x h
      exact Nat.lt_succ_of_lt (w.cacheR op a b x h)
    · exact w.cacheM
    · exact Nat.le_succ _
    · exact fun _ h => h
    · intro k' x h
      simp only
      rw [HMap.get?_insert]
      split
      · rename_i e; subst e; rw [hnone] at h; cases h
      · exact h
    · intro τ hm ha
      refine ⟨update τ s.numVars (κ k), update_below, models_agree w.clauses update_below hm, ?_⟩
      intro k' x h
      rcases hget k' x h with ⟨rfl, rfl⟩ | h
      · simp [update]
      · rw [update_below _ (w.atoms _ _ h)]
        exact ha _ _ h
    · simp only
      rw [HMap.get?_insert, if_pos rfl]

theorem gate_spec {s : Cnf} (w : CnfWF s) {op : Op} {a b : Lit} (ha : a.var < s.numVars)
    (hb : b.var < s.numVars) (κ : List Char → Bool) :
    CnfWF (s.gate op a b).2 ∧ Grows s (s.gate op a b).2 ∧ Extends κ s (s.gate op a b).2 ∧
      (s.gate op a b).1.var < (s.gate op a b).2.numVars ∧
      ∀ τ, Models τ (s.gate op a b).2.clauses →
        ((s.gate op a b).1.holds τ ↔ op.holds (a.holds τ) (b.holds τ)) := by
  unfold Cnf.gate
  split
  · rename_i x hx
    exact ⟨w, Grows.refl s, Extends.refl s, w.cacheR _ _ _ _ hx, w.cacheM _ _ _ _ hx⟩
  · rename_i hnone
    have hf := Cnf.pushAll_frame (s := { s with numVars := s.numVars + 1 })
      (cs := Cnf.gateClauses ⟨s.numVars, true⟩ a b op)
    have hmod := fun τ => Cnf.pushAll_models (s := { s with numVars := s.numVars + 1 }) (τ := τ)
      (cs := Cnf.gateClauses ⟨s.numVars, true⟩ a b op)
    simp only
    revert hf hmod
    generalize ({ s with numVars := s.numVars + 1 } : Cnf).pushAll
      (Cnf.gateClauses ⟨s.numVars, true⟩ a b op) = s2
    rintro ⟨f1, f2, f3, f4, f5⟩ hmod
    simp only at f1 f2 f3 f4 f5
    have hmod' : ∀ τ, Models τ s2.clauses ↔ Models τ s.clauses ∧
        ((⟨s.numVars, true⟩ : Lit).holds τ ↔ op.holds (a.holds τ) (b.holds τ)) := by
      intro τ
      rw [hmod τ, gateClauses_models]
    have hget : ∀ o a' b' x, (s2.cache.insert (op, a, b) ⟨s.numVars, true⟩).get? (o, a', b') = some x →
        ((o, a', b') = (op, a, b) ∧ x = ⟨s.numVars, true⟩) ∨ s.cache.get? (o, a', b') = some x := by
      intro o a' b' x h
      rw [HMap.get?_insert] at h
      split at h
      · rename_i e
        simp only [Option.some.injEq] at h
        exact Or.inl ⟨e, h.symm⟩
      · rw [f3] at h; exact Or.inr h
    have hgc : ∀ c ∈ Cnf.gateClauses ⟨s.numVars, true⟩ a b op, InRange (s.numVars + 1) c := by
      intro c hc l hl
      have : l.var = s.numVars ∨ l.var = a.var ∨ l.var = b.var := by
        cases op <;> simp only [Cnf.gateClauses, List.mem_cons, List.not_mem_nil, or_false] at hc
        all_goals
          rcases hc with rfl | rfl | rfl | rfl <;>
          (simp only [List.mem_cons, List.not_mem_nil, or_false] at hl
           rcases hl with rfl | rfl | rfl <;> simp)
      omega
    refine ⟨⟨?_, ?_, ?_, ?_, ?_⟩, ⟨?_, ?_, ?_⟩, ?_, ?_, ?_⟩
    · intro k x h
      simp only at h ⊢
      rw [f2] at h; rw [f1]
      exact Nat.lt_succ_of_lt (w.atoms _ _ h)
    · intro k k' x h h'
      simp only at h h'
      rw [f2] at h h'
      exact w.inj _ _ _ h h'
    · simp only
      rw [f1]
      exact f5 _ (fun d hd l hl => Nat.lt_succ_of_lt (w.clauses d hd l hl)) hgc
    · intro o a' b' x h
      simp only
      rw [f1]
      rcases hget _ _ _ _ h with ⟨_, rfl⟩ | h
      · exact Nat.lt_succ_self _
      · exact Nat.lt_succ_of_lt (w.cacheR _ _ _ _ h)
    · intro o a' b' x h τ hm
      simp only at hm
      have hm' := (hmod' τ).mp hm
      rcases hget _ _ _ _ h with ⟨e, rfl⟩ | h
      · simp only [Prod.mk.injEq] at e
        obtain ⟨rfl, rfl, rfl⟩ := e
        exact hm'.2
      · exact w.cacheM _ _ _ _ h τ hm'.1
    · simp only; omega
    · exact fun c hc => f4 c hc
    · intro k x h
      simp only
      rw [f2]; exact h
    · intro τ hm hat
      have : ∃ b0 : Bool, (b0 = true ↔ op.holds (a.holds τ) (b.holds τ)) := by
        by_cases h : op.holds (a.holds τ) (b.holds τ)
        · exact ⟨true, by simp [h]⟩
        · exact ⟨false, by simp [h]⟩
      obtain ⟨b0, hb0⟩ := this
      refine ⟨update τ s.numVars b0, update_below, ?_, ?_⟩
      · simp only
        rw [hmod']
        refine ⟨models_agree w.clauses update_below hm, ?_⟩
        have e1 : a.holds (update τ s.numVars b0) ↔ a.holds τ := by
          unfold Lit.holds; rw [update_below _ ha]
        have e2 : b.holds (update τ s.numVars b0) ↔ b.holds τ := by
          unfold Lit.holds; rw [update_below _ hb]
        have e3 : (⟨s.numVars, true⟩ : Lit).holds (update τ s.numVars b0) ↔ b0 = true := by
          unfold Lit.holds; simp [update]
        rw [e3, hb0]
        cases op <;> simp only [Op.holds, e1, e2]
      · intro k x h
        simp only at h
        rw [f2] at h
        rw [update_below _ (w.atoms _ _ h)]
        exact hat _ _ h
    · show s.numVars < s2.numVars
      omega
    · intro τ hm
      exact ((hmod' τ).mp hm).2

theorem order2_var {a b : Lit} {n : Nat} (ha : a.var < n) (hb : b.var < n) :
    (order2 a b).1.var < n ∧ (order2 a b).2.var < n := by
  unfold order2
  split <;> simp [ha, hb]

theorem order2_comm (τ : Nat → Bool) (a b : Lit) {op : Op} (h : op ≠ .impl) :
    op.holds ((order2 a b).1.holds τ) ((order2 a b).2.holds τ) ↔ op.holds (a.holds τ) (b.holds τ) := by
  unfold order2
  split
  · exact Iff.rfl
  · cases op
    · exact And.comm
    · exact Or.comm
    · exact absurd rfl h
    · exact ⟨Iff.symm, Iff.symm⟩

/-- What the translation of a piece promises. -/
structure PieceOk (κ : List Char → Bool) (s s' : Cnf) (lits : List Lit) (truth : Bool) : Prop where
  wf : CnfWF s'
  grows : Grows s s'
  ext : Extends κ s s'
  range : InRange s'.numVars lits
  meaning : ∀ τ, Models τ s'.clauses → Atoms κ s' τ → (Clause.holds τ lits ↔ truth = true)

theorem holds_single {τ : Nat → Bool} {l : Lit} : Clause.holds τ [l] ↔ l.holds τ := by
  simp [Clause.holds]

theorem holds_append {τ : Nat → Bool} {u v : List Lit} :
    Clause.holds τ (u ++ v) ↔ Clause.holds τ u ∨ Clause.holds τ v := by
  unfold Clause.holds
  constructor
  · rintro ⟨l, hl, h⟩
    rcases List.mem_append.mp hl with hl | hl
    · exact Or.inl ⟨l, hl, h⟩
    · exact Or.inr ⟨l, hl, h⟩
  · rintro (⟨l, hl, h⟩ | ⟨l, hl, h⟩)
    · exact ⟨l, List.mem_append_left _ hl, h⟩
    · exact ⟨l, List.mem_append_right _ hl, h⟩

theorem atom_piece {κ : List Char → Bool} {s : Cnf} (w : CnfWF s) (k : List Char) (pos : Bool) :
    PieceOk κ s (s.atomVar k).2 [⟨(s.atomVar k).1, pos⟩] (κ k == pos) := by
  obtain ⟨h1, h2, h3, h4⟩ := atomVar_spec w k κ
  refine ⟨h1, h2, h3, ?_, ?_⟩
  · intro l hl
    rw [List.mem_singleton.mp hl]
    exact h1.atoms _ _ h4
  · intro τ _ ha
    rw [holds_single]
    unfold Lit.holds
    rw [ha _ _ h4]
    simp

theorem gate_piece {κ : List Char → Bool} {s s1 s2 : Cnf} {a b a' b' : Lit} {op : Op} {p q r : Bool}
    (h1 : PieceOk κ s s1 [a] p) (h2 : PieceOk κ s1 s2 [b] q)
    (hv : a'.var < s2.numVars ∧ b'.var < s2.numVars)
    (hm : ∀ τ, op.holds (a'.holds τ) (b'.holds τ) ↔ op.holds (a.holds τ) (b.holds τ))
    (hr : op.holds (p = true) (q = true) ↔ r = true) :
    PieceOk κ s (s2.gate op a' b').2 [(s2.gate op a' b').1] r := by
  obtain ⟨g1, g2, g3, g4, g5⟩ := gate_spec h2.wf (op := op) hv.1 hv.2 κ
  refine ⟨g1, (h1.grows.trans h2.grows).trans g2,
    Extends.trans (h1.grows.trans h2.grows) (Extends.trans h1.grows h1.ext h2.ext) g3, ?_, ?_⟩
  · intro l hl
    rw [List.mem_singleton.mp hl]; exact g4
  · intro τ hmod hat
    have m2 := g2.models hmod
    have a2 := g2.atoms hat
    have e2 := h2.meaning τ m2 a2
    have e1 := h1.meaning τ (h2.grows.models m2) (h2.grows.atoms a2)
    rw [holds_single] at e1 e2 ⊢
    rw [g5 τ hmod, hm τ, ← hr]
    cases op <;> simp only [Op.holds, e1, e2]

variable {v : Expr → Bool} {κ : List Char → Bool}

theorem atomKey_eval {e : Expr} {k : List Char} (h : atomKey e = some k) : e.eval v = v e := by
  cases e <;> simp [atomKey] at h <;> rfl

theorem atom_encode {e : Expr} {s s' : Cnf} {l : Lit}
    (hv : ∀ e k, atomKey e = some k → v e = κ k) (w : CnfWF s)
    (h : (match atomKey e with
      | none => none
      | some k => some ((⟨(s.atomVar k).1, true⟩ : Lit), (s.atomVar k).2)) = some (l, s')) :
    PieceOk κ s s' [l] (e.eval v) := by
  split at h
  · cases h
  · rename_i k hk
    simp only [Option.some.injEq, Prod.mk.injEq] at h
    rw [← h.1, ← h.2, atomKey_eval hk, hv _ _ hk]
    have := atom_piece (κ := κ) w k true
    simpa using this

theorem encode_spec (hv : ∀ e k, atomKey e = some k → v e = κ k) :
    ∀ {e : Expr} {s s' : Cnf} {l : Lit}, CnfWF s → Cnf.encode e s = some (l, s') →
      PieceOk κ s s' [l] (e.eval v) := by
  intro e
  have lit1 : ∀ {s s' : Cnf} {l : Lit} {t : Bool}, PieceOk κ s s' [l] t → l.var < s'.numVars :=
    fun h => h.range _ (by simp)
  induction e with
  | pred n a wd => intro s s' l w h; exact atom_encode hv w h
  | ident a b => intro s s' l w h; exact atom_encode hv w h
  | atom n => intro s s' l w h; exact atom_encode hv w h
  | other t => intro s s' l w h; exact atom_encode hv w h
  | not p ih =>
    intro s s' l w h
    rw [Cnf.encode] at h
    split at h
    · cases h
    · rename_i a s1 h1
      have hp := ih w h1
      simp only [Option.some.injEq, Prod.mk.injEq] at h
      rw [← h.1, ← h.2]
      refine ⟨hp.wf, hp.grows, hp.ext, ?_, ?_⟩
      · intro m hm
        rw [List.mem_singleton.mp hm]
        exact hp.range a (by simp)
      · intro τ hmod hat
        have := hp.meaning τ hmod hat
        rw [holds_single] at this ⊢
        rw [Lit.holds_negated, this, Expr.eval]
        simp
  | and p q ihp ihq =>
    intro s s' l w h
    rw [Cnf.encode] at h
    split at h
    · cases h
    · rename_i a s1 h1
      split at h
      · cases h
      · rename_i b s2 h2
        have hp := ihp w h1
        have hq := ihq hp.wf h2
        simp only [Option.some.injEq] at h
        have e1 := congrArg Prod.fst h
        have e2 := congrArg Prod.snd h
        simp only at e1 e2
        rw [← e1, ← e2]
        exact gate_piece hp hq (order2_var (Nat.lt_of_lt_of_le (lit1 hp) hq.grows.le) (lit1 hq))
          (fun τ => order2_comm τ a b (by simp)) (by simp [Op.holds, Expr.eval])
  | or p q ihp ihq =>
    intro s s' l w h
    rw [Cnf.encode] at h
    split at h
    · cases h
    · rename_i a s1 h1
      split at h
      · cases h
      · rename_i b s2 h2
        have hp := ihp w h1
        have hq := ihq hp.wf h2
        simp only [Option.some.injEq] at h
        have e1 := congrArg Prod.fst h
        have e2 := congrArg Prod.snd h
        simp only at e1 e2
        rw [← e1, ← e2]
        exact gate_piece hp hq (order2_var (Nat.lt_of_lt_of_le (lit1 hp) hq.grows.le) (lit1 hq))
          (fun τ => order2_comm τ a b (by simp)) (by simp [Op.holds, Expr.eval])
  | implies p q ihp ihq =>
    intro s s' l w h
    rw [Cnf.encode] at h
    split at h
    · cases h
    · rename_i a s1 h1
      split at h
      · cases h
      · rename_i b s2 h2
        have hp := ihp w h1
        have hq := ihq hp.wf h2
        simp only [Option.some.injEq] at h
        have e1 := congrArg Prod.fst h
        have e2 := congrArg Prod.snd h
        simp only at e1 e2
        rw [← e1, ← e2]
        exact gate_piece hp hq ⟨Nat.lt_of_lt_of_le (lit1 hp) hq.grows.le, lit1 hq⟩
          (fun τ => Iff.rfl) (by
            rw [Expr.eval]
            cases p.eval v <;> cases q.eval v <;> simp [Op.holds])
  | iff p q ihp ihq =>
    intro s s' l w h
    rw [Cnf.encode] at h
    split at h
    · cases h
    · rename_i a s1 h1
      split at h
      · cases h
      · rename_i b s2 h2
        have hp := ihp w h1
        have hq := ihq hp.wf h2
        simp only [Option.some.injEq] at h
        have e1 := congrArg Prod.fst h
        have e2 := congrArg Prod.snd h
        simp only at e1 e2
        rw [← e1, ← e2]
        exact gate_piece hp hq (order2_var (Nat.lt_of_lt_of_le (lit1 hp) hq.grows.le) (lit1 hq))
          (fun τ => order2_comm τ a b (by simp)) (by
            rw [Expr.eval]
            cases p.eval v <;> cases q.eval v <;> simp [Op.holds])

theorem litOfAtom_spec (hv : ∀ e k, atomKey e = some k → v e = κ k) {e : Expr} {s s' : Cnf} {l : Lit}
    (w : CnfWF s) (h : s.litOfAtom e = some (l, s')) : PieceOk κ s s' [l] (e.eval v) := by
  unfold Cnf.litOfAtom at h
  split at h
  · split at h
    · cases h
    · rename_i p k hk
      simp only [Option.some.injEq, Prod.mk.injEq] at h
      rw [← h.1, ← h.2, Expr.eval, atomKey_eval hk, hv _ _ hk]
      have := atom_piece (κ := κ) w k false
      have e : (κ k == false) = !κ k := by cases κ k <;> rfl
      rwa [e] at this
  · exact atom_encode hv w h

/-- How the split relates to the meaning. -/
theorem shape_eval (e : Expr) (v : Expr → Bool) :
    match e.shape with
    | .two a b => e.eval v = (a.eval v || b.eval v)
    | .one a => e.eval v = a.eval v
    | .enc => True := by
  unfold Expr.shape
  split
  · rename_i h
    split at h <;> simp at h
    · obtain ⟨rfl, rfl⟩ := h; rw [Expr.eval]
    · obtain ⟨rfl, rfl⟩ := h; rw [Expr.eval, eval_negate]
    · obtain ⟨rfl, rfl⟩ := h; rw [Expr.eval, eval_negate, eval_negate, Expr.eval, Bool.not_and]
  · rename_i h
    split at h <;> simp at h
    subst h; simp [Expr.eval]
  · trivial

theorem clauseLitsF_spec (hv : ∀ e k, atomKey e = some k → v e = κ k) :
    ∀ {n : Nat} {e : Expr} {s s' : Cnf} {ls : List Lit}, CnfWF s →
      Cnf.clauseLitsF n s e = some (ls, s') → PieceOk κ s s' ls (e.eval v) := by
  intro n
  induction n with
  | zero => intro e s s' ls _ h; simp [Cnf.clauseLitsF] at h
  | succ n ih =>
    intro e s s' ls w h
    have hsh := shape_eval e v
    rw [Cnf.clauseLitsF] at h
    split at h
    · rename_i l s1 h1
      simp only [Option.some.injEq, Prod.mk.injEq] at h
      rw [← h.1, ← h.2]
      exact litOfAtom_spec hv w h1
    · split at h
      · rename_i a b hab
        rw [hab] at hsh
        simp only at hsh
        split at h
        · cases h
        · rename_i u s1 h1
          split at h
          · cases h
          · rename_i x s2 h2
            simp only [Option.some.injEq, Prod.mk.injEq] at h
            rw [← h.1, ← h.2, hsh]
            have p1 := ih w h1
            have p2 := ih p1.wf h2
            refine ⟨p2.wf, p1.grows.trans p2.grows, Extends.trans p1.grows p1.ext p2.ext, ?_, ?_⟩
            · intro l hl
              rcases List.mem_append.mp hl with hl | hl
              · exact Nat.lt_of_lt_of_le (p1.range l hl) p2.grows.le
              · exact p2.range l hl
            · intro τ hm hat
              rw [holds_append, p2.meaning τ hm hat,
                p1.meaning τ (p2.grows.models hm) (p2.grows.atoms hat), Bool.or_eq_true]
      · rename_i a ha
        rw [ha] at hsh
        simp only at hsh
        rw [hsh]
        exact ih w h
      · split at h
        · cases h
        · rename_i l s1 h1
          simp only [Option.some.injEq, Prod.mk.injEq] at h
          rw [← h.1, ← h.2]
          exact encode_spec hv w h1

/-- What asserting a formula promises. -/
structure AssertOk (κ : List Char → Bool) (s s' : Cnf) (truth : Bool) : Prop where
  wf : CnfWF s'
  grows : Grows s s'
  sound : ∀ τ, Models τ s'.clauses → Atoms κ s' τ → truth = true
  ext : truth = true → Extends κ s s'

theorem push_assert {s s' : Cnf} {ls : List Lit} {t : Bool} (p : PieceOk κ s s' ls t) :
    AssertOk κ s (s'.pushClause ls) t := by
  have g : Grows s' (s'.pushClause ls) :=
    ⟨Nat.le_of_eq (Cnf.pushClause_numVars _ _).symm, fun c hc => Cnf.pushClause_mem hc,
      fun k x h => by rw [Cnf.pushClause_atomOf]; exact h⟩
  refine ⟨⟨?_, ?_, ?_, ?_, ?_⟩, p.grows.trans g, ?_, ?_⟩
  · rw [Cnf.pushClause_atomOf, Cnf.pushClause_numVars]; exact p.wf.atoms
  · rw [Cnf.pushClause_atomOf]; exact p.wf.inj
  · rw [Cnf.pushClause_numVars]; exact Cnf.pushClause_range p.wf.clauses p.range
  · rw [Cnf.pushClause_cache, Cnf.pushClause_numVars]; exact p.wf.cacheR
  · rw [Cnf.pushClause_cache]
    intro op a b x h τ hm
    exact p.wf.cacheM op a b x h τ (g.models hm)
  · intro τ hm hat
    exact (p.meaning τ (g.models hm) (g.atoms hat)).mp (Cnf.pushClause_models.mp hm).2
  · intro ht τ hm hat
    obtain ⟨τ', e, m, a⟩ := p.ext τ hm hat
    refine ⟨τ', e, Cnf.pushClause_models.mpr ⟨m, (p.meaning τ' m a).mpr ht⟩, ?_⟩
    intro k x h
    rw [Cnf.pushClause_atomOf] at h
    exact a k x h

theorem assert_single (hv : ∀ e k, atomKey e = some k → v e = κ k) {e : Expr} {s s' : Cnf}
    (w : CnfWF s)
    (h : (match s.clauseLits e with
      | none => none
      | some (u, s1) => some (s1.pushClause u)) = some s') : AssertOk κ s s' (e.eval v) := by
  split at h
  · cases h
  · rename_i u s1 h1
    simp only [Option.some.injEq] at h
    rw [← h]
    exact push_assert (clauseLitsF_spec hv w h1)

theorem assert_spec (hv : ∀ e k, atomKey e = some k → v e = κ k) :
    ∀ {e : Expr} {s s' : Cnf}, CnfWF s → Cnf.assert e s = some s' → AssertOk κ s s' (e.eval v) := by
  intro e
  induction e with
  | pred n a wd => intro s s' w h; exact assert_single hv w h
  | ident a b => intro s s' w h; exact assert_single hv w h
  | atom n => intro s s' w h; exact assert_single hv w h
  | other t => intro s s' w h; exact assert_single hv w h
  | not p _ => intro s s' w h; exact assert_single hv w h
  | or p q _ _ => intro s s' w h; exact assert_single hv w h
  | iff p q _ _ => intro s s' w h; exact assert_single hv w h
  | and p q ihp ihq =>
    intro s s' w h
    rw [Cnf.assert] at h
    split at h
    · cases h
    · rename_i s1 h1
      have a1 := ihp w h1
      have a2 := ihq a1.wf h
      refine ⟨a2.wf, a1.grows.trans a2.grows, ?_, ?_⟩
      · intro τ hm hat
        rw [Expr.eval, a2.sound τ hm hat, a1.sound τ (a2.grows.models hm) (a2.grows.atoms hat)]
        rfl
      · intro ht
        rw [Expr.eval, Bool.and_eq_true] at ht
        exact Extends.trans a1.grows (a1.ext ht.1) (a2.ext ht.2)
  | implies p q _ _ =>
    intro s s' w h
    rw [Cnf.assert] at h
    split at h
    · cases h
    · rename_i u s1 h1
      split at h
      · cases h
      · rename_i x s2 h2
        simp only [Option.some.injEq] at h
        rw [← h]
        have p1 := clauseLitsF_spec hv w h1
        have p2 := clauseLitsF_spec hv p1.wf h2
        apply push_assert
        refine ⟨p2.wf, p1.grows.trans p2.grows, Extends.trans p1.grows p1.ext p2.ext, ?_, ?_⟩
        · intro l hl
          rcases List.mem_append.mp hl with hl | hl
          · exact Nat.lt_of_lt_of_le (p1.range l hl) p2.grows.le
          · exact p2.range l hl
        · intro τ hm hat
          rw [holds_append, p2.meaning τ hm hat,
            p1.meaning τ (p2.grows.models hm) (p2.grows.atoms hat), Expr.eval, eval_negate,
            Bool.or_eq_true]

theorem assertAll_spec (hv : ∀ e k, atomKey e = some k → v e = κ k) :
    ∀ {ps : List Expr} {s s' : Cnf}, CnfWF s → Cnf.assertAll ps s = some s' →
      AssertOk κ s s' (ps.all (fun p => p.eval v)) := by
  intro ps
  induction ps with
  | nil =>
    intro s s' w h
    simp only [Cnf.assertAll, Option.some.injEq] at h
    rw [← h]
    exact ⟨w, Grows.refl s, fun _ _ _ => rfl, fun _ => Extends.refl s⟩
  | cons p ps ih =>
    intro s s' w h
    rw [Cnf.assertAll] at h
    split at h
    · cases h
    · rename_i s1 h1
      have a1 := assert_spec hv w h1
      have a2 := ih a1.wf h
      refine ⟨a2.wf, a1.grows.trans a2.grows, ?_, ?_⟩
      · intro τ hm hat
        rw [List.all_cons, a2.sound τ hm hat, a1.sound τ (a2.grows.models hm) (a2.grows.atoms hat)]
        rfl
      · intro ht
        rw [List.all_cons, Bool.and_eq_true] at ht
        exact Extends.trans a1.grows (a1.ext ht.1) (a2.ext ht.2)

theorem new_wf : CnfWF Cnf.new :=
  ⟨fun k x h => by simp [Cnf.new] at h, fun k k' x h => by simp [Cnf.new] at h,
    fun c h => by simp [Cnf.new] at h, fun op a b x h => by simp [Cnf.new] at h,
    fun op a b x h => by simp [Cnf.new] at h⟩

end Verif.Proof
