import Verif.Proof.PrLemmas
/-!
# C21, C22: accepted refutations are sound

Specification: `Verif.Proof.Models` and `Satisfiable` (Proof/Lit.lean) are the textbook meaning of a
clause set; `UP` and `UPConflict` (Proof/RupLemmas.lean) define unit propagation as an inductive
closure, with no order of visits.
-/

namespace Verif.Props
open Verif.Proof

/-! ## C21 -/

/-- **C21**: an accepted refutation means the original clauses have no satisfying assignment, for
every number of variables, every clause set and every (arbitrary, untrusted) list of learned
clauses. -/
theorem C21_refutation_sound (n : Nat) (original learned : List Clause)
    (h : checkRefutation n original learned = some true) : ¬ Satisfiable original := by
  induction learned generalizing original with
  | nil =>
    rintro ⟨τ, hm⟩
    obtain ⟨l, hl, _⟩ := isRup_sound h hm
    simp at hl
  | cons c cs ih =>
    rw [checkRefutation] at h
    split at h
    · cases h
    · cases h
    · rename_i hr
      intro hs
      exact ih _ h (isRup_sat hr hs)

/-- **C21**: a clause accepted as a single step holds in every satisfying assignment. -/
theorem C21_clause_implied (n : Nat) (db : List Clause) (c : Clause)
    (h : isRup n db c = some true) (τ : Nat → Bool) (hm : Models τ db) : Clause.holds τ c :=
  isRup_sound h hm

/-- Specification: `learned` is a reverse-unit-propagation refutation of `db`. -/
def IsRupProof (db : List Clause) : List Clause → Prop
  | [] => UPConflict db []
  | c :: cs => UPConflict db (c.map Lit.negated) ∧ IsRupProof (db ++ [c]) cs

/-- **C21**: and nothing is rejected by accident. Over literals in range the checker answers, and it
accepts exactly the traces in which each learned clause, and finally the empty one, follows by unit
propagation. -/
theorem C21_accepts_exactly (n : Nat) (original learned : List Clause)
    (ho : ∀ c ∈ original, ∀ l ∈ c, l.var < n) (hl : ∀ c ∈ learned, ∀ l ∈ c, l.var < n) :
    (checkRefutation n original learned = some true ∧ IsRupProof original learned) ∨
    (checkRefutation n original learned = some false ∧ ¬ IsRupProof original learned) := by
  induction learned generalizing original with
  | nil => exact upConflict_iff (ls := []) ho (fun l hm => by cases hm)
  | cons c cs ih =>
    have hc : InRange n (c.map Lit.negated) := by
      intro l hm
      obtain ⟨m, hm', rfl⟩ := List.mem_map.mp hm
      exact hl c (by simp) m hm'
    rw [checkRefutation]
    rcases upConflict_iff ho hc with ⟨h1, h2⟩ | ⟨h1, h2⟩
    · have e : isRup n original c = some true := h1
      rw [e]
      rcases ih (original ++ [c]) (by
          intro d hd
          rcases List.mem_append.mp hd with hd | hd
          · exact ho d hd
          · rw [List.mem_singleton.mp hd]; exact hl c (by simp))
        (fun d hd => hl d (List.mem_cons_of_mem _ hd)) with ⟨h3, h4⟩ | ⟨h3, h4⟩
      · exact Or.inl ⟨h3, h2, h4⟩
      · exact Or.inr ⟨h3, fun h => h4 h.2⟩
    · have e : isRup n original c = some false := h1
      rw [e]
      exact Or.inr ⟨rfl, fun h => h2 h.1⟩

/-- The four clauses over two variables; `y` is learned, then propagation conflicts. -/
def fourClauses : List Clause :=
  [[⟨0, true⟩, ⟨1, true⟩], [⟨0, false⟩, ⟨1, true⟩], [⟨0, true⟩, ⟨1, false⟩], [⟨0, false⟩, ⟨1, false⟩]]

example : checkRefutation 2 fourClauses [[⟨1, true⟩]] = some true ∧
    checkRefutation 2 fourClauses [] = some false ∧
    checkRefutation 2 (fourClauses.take 3) [[⟨1, true⟩]] = some false := by decide

example : isRup 2 (fourClauses.take 2) [⟨1, true⟩] = some true ∧
    isRup 2 (fourClauses.take 1) [⟨1, true⟩] = some false := by decide

/-- Duplicate literals and tautologies are handled: `x ∨ x` propagates, `x ∨ ¬x` does not. -/
example : checkRefutation 1 [[⟨0, true⟩, ⟨0, true⟩], [⟨0, false⟩]] [] = some true ∧
    checkRefutation 1 [[⟨0, true⟩, ⟨0, false⟩]] [] = some false := by decide

/-! ## C22 -/

/-- **C22**: an accepted proof of RUP additions, propagation-redundant additions (with assignment or
substitution witnesses) and deletions means the original clauses have no satisfying assignment. -/
theorem C22_refutation_sound (n : Nat) (original : List Clause) (steps : List ProofStep)
    (h : checkPr n original steps = some true) : ¬ Satisfiable original :=
  checkPr_sound h

/-- **C22**: one accepted propagation-redundant addition never makes a satisfiable clause set
unsatisfiable. The witness may be anything, including a map that is not a permutation. -/
theorem C22_step_keeps_satisfiable (n : Nat) (db : List Clause) (c : Clause) (w : Witness)
    (h : isPr n db c w = some true) (hs : Satisfiable db) : Satisfiable (db ++ [c]) :=
  isPr_sound h hs

/-- **C22**: genuine symmetry-breaking additions are accepted: if the image of every clause is (as a
set of literals) again a clause, and assuming the negation of the new clause and of its image
unit-propagates to a conflict, the step is accepted. -/
theorem C22_accepts_symmetry (n : Nat) (db : List Clause) (c d : Clause) (σ : Perm)
    (hn : σ.length = n) (hi : ∀ m ∈ σ, m.var < n)
    (hdb : ∀ c ∈ db, ∀ l ∈ c, l.var < n) (hc : ∀ l ∈ c, l.var < n) (hd : σ.applyClause c = some d)
    (hauto : ∀ c ∈ db, ∀ d, σ.applyClause c = some d → ∃ e ∈ db, ∀ l, l ∈ e ↔ l ∈ d)
    (hup : UPConflict db (c.map Lit.negated ++ d.map Lit.negated)) :
    isPr n db c (.substitution σ) = some true := by
  show substitutionSr n db c σ = some true
  unfold substitutionSr
  rw [permIsAutomorphism_complete (by rw [hn]; exact hdb) hauto]
  simp only [hd]
  have hr : InRange n (c.map Lit.negated ++ d.map Lit.negated) := by
    intro l hl
    rcases List.mem_append.mp hl with hl | hl
    · obtain ⟨m, hm, rfl⟩ := List.mem_map.mp hl
      exact hc m hm
    · obtain ⟨m, hm, rfl⟩ := List.mem_map.mp hl
      obtain ⟨k, _, hk⟩ := (applyClause_mem hd).1 m hm
      unfold Perm.apply at hk
      split at hk
      · cases hk
      · rename_i img himg
        have := hi img (List.mem_of_getElem? himg)
        simp only [Option.some.injEq] at hk
        rw [← hk]
        split <;> simpa using this
  rcases upConflict_iff hdb hr with ⟨h, _⟩ | ⟨_, h⟩
  · exact h
  · exact absurd hup h

/-- **C22**: genuine assignment witnesses are accepted: the witness `w` contains no complementary
pair, makes the clause true, and for every clause it does not make true, assuming the negation of the
new clause and of that clause's literals untouched by `w` unit-propagates to a conflict. -/
theorem C22_accepts_assignment (n : Nat) (db : List Clause) (c : Clause) (w : List Lit)
    (hdb : ∀ c ∈ db, ∀ l ∈ c, l.var < n) (hc : ∀ l ∈ c, l.var < n) (hw : ∀ l ∈ w, l.var < n)
    (hcons : ∀ l ∈ w, l.negated ∉ w) (hsat : ∃ l ∈ c, l ∈ w)
    (hob : ∀ d ∈ db, (∀ l ∈ d, l ∉ w) →
      UPConflict db (c.map Lit.negated ++
        (d.filter fun m => m ∉ w ∧ m.negated ∉ w).map Lit.negated)) :
    isPr n db c (.assignment w) = some true := by
  show assignmentPr n db c w = some true
  have hj := assume_sound (P := fun l => l ∈ w) (ls := w) (justified_empty _ n) (fun _ h => h)
  unfold assignmentPr
  split
  · rename_i he
    obtain ⟨l, hl, hx⟩ := assume_panic he
    have := hw l hl
    rw [List.length_replicate] at hx
    omega
  · rename_i he
    obtain ⟨l, h1, h2⟩ := hj.1 he
    exact absurd h2 (hcons l h1)
  · rename_i ω he
    obtain ⟨hlen, htrue, _⟩ := assume_ok he
    rw [List.length_replicate] at hlen
    have hjust := hj.2 ω he
    have hmem : ∀ l, litVal ω l = some (some true) ↔ l ∈ w := fun l => ⟨hjust l, htrue l⟩
    rcases anyTrue_inRange (ω := ω) (c := c) (by rw [hlen]; exact hc) with ⟨h1, _⟩ | ⟨_, h2⟩
    · rw [h1]
      apply obligations_complete (by rw [hlen]; exact hdb)
      intro d hd hno
      have hno' : ∀ l ∈ d, l ∉ w := fun l hl h => hno l hl ((hmem l).mpr h)
      have e : restNegated ω d = (d.filter fun m => m ∉ w ∧ m.negated ∉ w).map Lit.negated := by
        unfold restNegated
        congr 1
        apply List.filter_congr
        intro m hm
        simp only [decide_eq_decide]
        constructor
        · intro h
          refine ⟨hno' m hm, fun h2 => ?_⟩
          have h3 := litVal_none_negated h
          rw [(hmem _).mpr h2] at h3
          simp at h3
        · rintro ⟨h1, h2⟩
          cases hv : litVal ω m with
          | none =>
            have := litVal_panic.mp hv
            have := hdb d hd m hm
            omega
          | some o =>
            cases o with
            | none => rfl
            | some b =>
              cases b with
              | true => exact absurd ((hmem m).mp hv) h1
              | false => exact absurd ((hmem _).mp (litVal_negated hv)) h2
      rw [e]
      have hr : InRange n (c.map Lit.negated ++
          (d.filter fun m => m ∉ w ∧ m.negated ∉ w).map Lit.negated) := by
        intro l hl
        rcases List.mem_append.mp hl with hl | hl
        · obtain ⟨m, hm, rfl⟩ := List.mem_map.mp hl
          exact hc m hm
        · obtain ⟨m, hm, rfl⟩ := List.mem_map.mp hl
          exact hdb d hd m (List.mem_filter.mp hm).1
      rcases upConflict_iff hdb hr with ⟨h, _⟩ | ⟨_, h⟩
      · exact h
      · exact absurd (hob d hd hno') h
    · obtain ⟨l, hl, h⟩ := hsat
      exact absurd ((hmem l).mpr h) (h2 l hl)

/-- **C22**: a deletion removes one clause with the named literals and nothing else. -/
theorem C22_delete (db : List Clause) (c : Clause) :
    (∀ x ∈ deleteClause db c, x ∈ db) ∧
    (∀ x ∈ db, ¬ (∀ l, l ∈ x ↔ l ∈ c) → x ∈ deleteClause db c) ∧
    ((∃ x ∈ db, ∀ l, l ∈ x ↔ l ∈ c) → (deleteClause db c).length + 1 = db.length) := by
  refine ⟨fun x hx => deleteClause_subset hx, ?_, ?_⟩
  · intro x hx hne
    unfold deleteClause
    split
    · exact hx
    · rename_i i hi
      obtain ⟨hlt, hp, _⟩ := List.findIdx?_eq_some_iff_getElem.mp hi
      have hp' : canonClause db[i] = canonClause c := by simpa using hp
      unfold swapRemove
      split
      · exact hx
      · rename_i z hz
        obtain ⟨j, hj, rfl⟩ := List.getElem_of_mem hx
        have hij : i ≠ j := by
          rintro rfl
          exact hne (canon_eq_iff.mp hp')
        rw [List.mem_iff_getElem]
        by_cases hlast : j = db.length - 1
        · refine ⟨i, by simp; omega, ?_⟩
          rw [List.getElem_dropLast, List.getElem_set_self]
          rw [List.getLast?_eq_getElem?, List.getElem?_eq_getElem (by omega)] at hz
          simp only [Option.some.injEq] at hz
          rw [← hz]
          simp only [hlast]
        · refine ⟨j, by simp; omega, ?_⟩
          rw [List.getElem_dropLast, List.getElem_set_ne hij]
  · rintro ⟨x, hx, hk⟩
    unfold deleteClause
    split
    · rename_i hi
      rw [List.findIdx?_eq_none_iff] at hi
      have := hi x hx
      simp [canon_eq_iff.mpr hk] at this
    · rename_i i hi
      obtain ⟨hlt, _⟩ := List.findIdx?_eq_some_iff_getElem.mp hi
      unfold swapRemove
      split
      · rename_i hz
        rw [List.getLast?_eq_none_iff] at hz
        rw [hz] at hlt; simp at hlt
      · simp; omega

/-- Exchanging the two variables is a symmetry of "exactly one of x, y"; the symmetry-breaking clause
`x`, which does not follow, is accepted and the pigeonhole-like set is refuted. -/
example :
    isPr 2 [[⟨0, true⟩, ⟨1, true⟩], [⟨0, false⟩, ⟨1, false⟩]] [⟨0, true⟩]
      (.substitution [⟨1, true⟩, ⟨0, true⟩]) = some true ∧
    isRup 2 [[⟨0, true⟩, ⟨1, true⟩], [⟨0, false⟩, ⟨1, false⟩]] [⟨0, true⟩] = some false ∧
    checkPr 2 fourClauses [.pr [⟨0, true⟩] (.substitution [⟨1, true⟩, ⟨0, true⟩])] = some true := by
  decide

/-- An assignment witness: `x` may be added to `x ∨ y` with the witness `x`. -/
example :
    isPr 2 [[⟨0, true⟩, ⟨1, true⟩]] [⟨0, true⟩] (.assignment [⟨0, true⟩]) = some true ∧
    isPr 2 [[⟨0, false⟩, ⟨1, true⟩], [⟨0, false⟩, ⟨1, false⟩]] [⟨0, true⟩]
      (.assignment [⟨0, true⟩]) = some false := by
  decide

/-- The hypotheses of the acceptance theorems are met by these cases. -/
example : UPConflict [[⟨0, true⟩, ⟨1, true⟩], [⟨0, false⟩, ⟨1, false⟩]]
    ([⟨0, true⟩].map Lit.negated ++ [⟨1, true⟩].map Lit.negated) :=
  Or.inl ⟨[⟨0, true⟩, ⟨1, true⟩], by simp, by
    intro m hm
    apply UP.assumed
    simp at hm
    rcases hm with rfl | rfl <;> simp [Lit.negated]⟩

example : deleteClause fourClauses [⟨1, true⟩, ⟨0, true⟩] = [fourClauses[3], fourClauses[1], fourClauses[2]] := by
  decide

end Verif.Props
