import Verif.Proof.Dimacs
/-!
# C24: DIMACS text round-trips

The white-space predicate is a parameter; what is assumed of it is `DimacsSpace`.
-/

namespace Verif.Props
open Verif.Proof Verif

/-- What is assumed of white space: space is, the characters of the printed text are not. -/
structure DimacsSpace (ws : Char → Bool) : Prop where
  space : ws ' ' = true
  digit : ∀ c, c.isDigit = true → ws c = false
  minus : ws '-' = false
  p : ws 'p' = false
  c : ws 'c' = false
  n : ws 'n' = false
  f : ws 'f' = false

/-- ASCII white space meets it. -/
def asciiSpace (c : Char) : Bool := c = ' ' || c = '\t' || c = '\n' || c = '\r'

theorem asciiSpace_ok : DimacsSpace asciiSpace := by
  refine ⟨by decide, ?_, by decide, by decide, by decide, by decide, by decide⟩
  intro c h
  unfold asciiSpace
  simp only [Bool.or_eq_false_iff, decide_eq_false_iff_not]
  refine ⟨⟨⟨?_, ?_⟩, ?_⟩, ?_⟩ <;> rintro rfl <;> simp at h

theorem linesFrom_line : ∀ {l : List Char} {cur rest : List Char}, (∀ c ∈ l, c ≠ '\n') →
    linesFrom cur (l ++ '\n' :: rest) = stripCr (cur ++ l) :: linesFrom [] rest := by
  intro l
  induction l with
  | nil => intro cur rest _; simp [linesFrom]
  | cons c l ih =>
    intro cur rest h
    rw [List.cons_append, linesFrom, if_neg (h c (by simp)), ih (fun x hx => h x (by simp [hx]))]
    simp

theorem stripCr_id {l : List Char} (h : ∀ c ∈ l, c ≠ '\r') : stripCr l = l := by
  unfold stripCr
  rw [if_neg]
  intro e
  exact h _ (List.mem_of_getLast? e) rfl

theorem wordsFrom_word {ws : Char → Bool} (hs : ws ' ' = true) : ∀ {t cur rest : List Char},
    (∀ c ∈ t, ws c = false) → cur ++ t ≠ [] →
    wordsFrom ws cur (t ++ ' ' :: rest) = (cur ++ t) :: wordsFrom ws [] rest := by
  intro t
  induction t with
  | nil =>
    intro cur rest _ hne
    rw [List.append_nil] at hne
    rw [List.nil_append, wordsFrom, if_pos hs, if_neg hne, List.append_nil]
  | cons c t ih =>
    intro cur rest h hne
    rw [List.cons_append, wordsFrom, if_neg (by simp [h c (by simp)]),
      ih (fun x hx => h x (by simp [hx])) (by simp)]
    simp

theorem wordsFrom_last {ws : Char → Bool} : ∀ {t cur : List Char},
    (∀ c ∈ t, ws c = false) → cur ++ t ≠ [] → wordsFrom ws cur t = [cur ++ t] := by
  intro t
  induction t with
  | nil =>
    intro cur _ hne
    rw [List.append_nil] at hne
    rw [wordsFrom, if_neg hne, List.append_nil]
  | cons c t ih =>
    intro cur h hne
    rw [wordsFrom, if_neg (by simp [h c (by simp)]), ih (fun x hx => h x (by simp [hx])) (by simp)]
    simp

theorem trim_ends {ws : Char → Bool} {a b : Char} {m : List Char} (ha : ws a = false)
    (hb : ws b = false) : trim ws (a :: (m ++ [b])) = a :: (m ++ [b]) := by
  unfold trim
  have h1 : (a :: (m ++ [b])).dropWhile ws = a :: (m ++ [b]) := by
    rw [List.dropWhile_cons, if_neg (by simp [ha])]
  rw [h1]
  have h2 : (a :: (m ++ [b])).reverse = b :: (m.reverse ++ [a]) := by simp
  rw [h2, List.dropWhile_cons, if_neg (by simp [hb]), ← h2, List.reverse_reverse]

theorem showInt_ne_nil (n : Int) : showInt n ≠ [] := by
  unfold showInt
  intro h
  exact dec_ne_nil _ (List.append_eq_nil_iff.mp h).2

/-- The number a literal prints as. -/
def litNum (l : Lit) : Int := if l.pos then ((l.var + 1 : Nat) : Int) else -((l.var + 1 : Nat) : Int)

theorem showLit_eq (l : Lit) : showLit l = showInt (litNum l) ++ [' '] := rfl

theorem words_clause {ws : Char → Bool} (h : DimacsSpace ws) (c : Clause) :
    wordsFrom ws [] (c.flatMap showLit ++ ['0']) = c.map (fun l => showInt (litNum l)) ++ [['0']] := by
  have hz : ws '0' = false := h.digit _ (by decide)
  induction c with
  | nil => simp [wordsFrom, hz]
  | cons l c ih =>
    rw [List.flatMap_cons, showLit_eq, List.append_assoc, List.append_assoc, List.singleton_append,
      wordsFrom_word h.space, ih]
    · simp
    · intro x hx
      rcases mem_showInt hx with rfl | hd
      · exact h.minus
      · exact h.digit _ hd
    · simpa using showInt_ne_nil _

theorem tokens_lits {nv : Nat} : ∀ {c : Clause} {st : DState} {rest : List (List Char)},
    (∀ l ∈ c, l.var < nv ∧ l.var < 2 ^ 31) →
    dTokens nv st (c.map (fun l => showInt (litNum l)) ++ rest) =
      dTokens nv { st with current := st.current ++ c } rest := by
  intro c
  induction c with
  | nil => intro st rest _; simp
  | cons l c ih =>
    intro st rest h
    obtain ⟨h1, h2⟩ := h l (by simp)
    have hn : parseI64 (showInt (litNum l)) = some (litNum l) := by
      unfold parseI64
      rw [parseInt_showInt]
      simp only
      rw [if_pos]
      unfold litNum
      split <;> omega
    have hne : litNum l ≠ 0 := by unfold litNum; split <;> omega
    have habs : (litNum l).natAbs = l.var + 1 := by unfold litNum; split <;> omega
    have hpos : decide (litNum l > 0) = l.pos := by
      unfold litNum
      cases l with
      | mk v p => cases p <;> simp <;> omega
    rw [List.map_cons, List.cons_append, dTokens, dToken, hn]
    simp only
    rw [if_neg hne, habs, if_neg (by omega), hpos]
    simp only
    rw [ih (fun x hx => h x (by simp [hx]))]
    have e : packLit (l.var + 1) l.pos = l := by
      unfold packLit
      rw [Nat.add_sub_cancel, Nat.mod_eq_of_lt h2]
    rw [e]
    simp

theorem showLit_chars {l : Lit} {x : Char} (hx : x ∈ showLit l) : x = ' ' ∨ x = '-' ∨ x.isDigit = true := by
  rw [showLit_eq, List.mem_append] at hx
  rcases hx with hx | hx
  · exact Or.inr (mem_showInt hx)
  · exact Or.inl (by simpa using hx)

theorem clause_chars {c : Clause} {x : Char} (hx : x ∈ c.flatMap showLit ++ ['0']) :
    x = ' ' ∨ x = '-' ∨ x.isDigit = true := by
  rcases List.mem_append.mp hx with hx | hx
  · obtain ⟨l, _, h⟩ := List.mem_flatMap.mp hx
    exact showLit_chars h
  · rw [List.mem_singleton.mp hx]; right; right; decide

theorem clean_char {x : Char} (h : x = ' ' ∨ x = '-' ∨ x.isDigit = true) : x ≠ '\n' ∧ x ≠ '\r' := by
  rcases h with rfl | rfl | h
  · decide
  · decide
  · constructor <;> rintro rfl <;> simp at h

/-- A printed clause line begins with a sign or digit. -/
theorem clause_line_shape {ws : Char → Bool} (h : DimacsSpace ws) (c : Clause) :
    trim ws (c.flatMap showLit ++ ['0']) = c.flatMap showLit ++ ['0'] ∧
    ∃ a r, c.flatMap showLit ++ ['0'] = a :: r ∧ a ≠ 'c' ∧ a ≠ 'p' := by
  have hz : ws '0' = false := h.digit _ (by decide)
  cases c with
  | nil =>
    constructor
    · simp only [List.flatMap_nil, List.nil_append]
      exact trim_id (by simp [hz])
    · exact ⟨'0', [], rfl, by decide, by decide⟩
  | cons l c =>
    cases hs : showInt (litNum l) with
    | nil => exact absurd hs (showInt_ne_nil _)
    | cons a r =>
      have ha : a = '-' ∨ a.isDigit = true := mem_showInt (n := litNum l) (by rw [hs]; simp)
      have haw : ws a = false := by
        rcases ha with rfl | hd
        · exact h.minus
        · exact h.digit _ hd
      have e : List.flatMap showLit (l :: c) ++ ['0'] =
          a :: ((r ++ ' ' :: c.flatMap showLit) ++ ['0']) := by
        rw [List.flatMap_cons, showLit_eq, hs]; simp
      rw [e]
      refine ⟨trim_ends haw hz, a, _, rfl, ?_, ?_⟩
      · rintro rfl
        rcases ha with ha | ha <;> simp at ha
      · rintro rfl
        rcases ha with ha | ha <;> simp at ha

theorem dLine_body {ws : Char → Bool} {st : DState} {raw line : List Char} {nv : Nat}
    (ht : trim ws raw = line) (hl : ∃ a r, line = a :: r ∧ a ≠ 'c' ∧ a ≠ 'p') (hh : st.header = some nv) :
    dLine ws st raw = dTokens nv st (wordsFrom ws [] line) := by
  obtain ⟨a, r, rfl, h1, h2⟩ := hl
  unfold dLine
  rw [ht]
  split
  · rename_i h; cases h
  · rename_i h; simp only [List.cons.injEq] at h; exact absurd h.1 h1
  · rename_i h; simp only [List.cons.injEq] at h; exact absurd h.1 h2
  · rw [hh]

theorem dLine_clause {ws : Char → Bool} (h : DimacsSpace ws) {c : Clause} {nv : Nat} {st : DState}
    (hh : st.header = some nv) (hcur : st.current = []) (hr : ∀ l ∈ c, l.var < nv ∧ l.var < 2 ^ 31) :
    dLine ws st (c.flatMap showLit ++ ['0']) = .ok { st with clauses := st.clauses ++ [c] } := by
  obtain ⟨h1, h2⟩ := clause_line_shape h c
  rw [dLine_body h1 h2 hh, words_clause h, tokens_lits hr]
  have hz : parseI64 ['0'] = some 0 := by decide
  rw [dTokens, dToken, hz]
  simp [dTokens, hcur]

theorem dLines_clauses {ws : Char → Bool} (h : DimacsSpace ws) {nv : Nat} : ∀ {cs : List Clause}
    {st : DState}, st.header = some nv → st.current = [] →
    (∀ c ∈ cs, ∀ l ∈ c, l.var < nv ∧ l.var < 2 ^ 31) →
    dLines ws st (linesFrom [] (cs.flatMap showClause)) = .ok { st with clauses := st.clauses ++ cs } := by
  intro cs
  induction cs with
  | nil => intro st _ _ _; simp [linesFrom, dLines]
  | cons c cs ih =>
    intro st hh hc hr
    have e : List.flatMap showClause (c :: cs) =
        (c.flatMap showLit ++ ['0']) ++ '\n' :: cs.flatMap showClause := by
      rw [List.flatMap_cons, showClause]; simp
    rw [e, linesFrom_line (fun x hx => (clean_char (clause_chars hx)).1), List.nil_append,
      stripCr_id (fun x hx => (clean_char (clause_chars hx)).2), dLines,
      dLine_clause h hh hc (hr c (by simp))]
    simp only
    rw [ih (st := { st with clauses := st.clauses ++ [c] }) hh hc (fun d hd => hr d (by simp [hd]))]
    simp

theorem parseUsize_dec {n : Nat} (h : n < 2 ^ 64) : parseUsize (dec n) = some n := by
  have hd : ∀ c ∈ dec n, c.isDigit = true := fun c hc => isDigit_dec hc
  have ht : stripPlus (dec n) = dec n := by
    unfold stripPlus
    split
    · rename_i t ht
      have := hd '+' (by rw [ht]; simp)
      simp at this
    · rfl
  unfold parseUsize
  rw [ht]
  simp only [dec_ne_nil, false_or, allDigits_iff.mpr hd, not_true, if_false, digitsVal_dec, if_pos h]

theorem dHeader_line {ws : Char → Bool} (h : DimacsSpace ws) {a b : Nat} (ha : a < 2 ^ 64)
    (hb : b < 2 ^ 64) :
    dLine ws ⟨none, [], []⟩ (['p', ' ', 'c', 'n', 'f', ' '] ++ dec a ++ [' '] ++ dec b) =
      .ok ⟨some a, [], []⟩ := by
  have da : ∀ c ∈ dec a, ws c = false := fun c hc => h.digit _ (isDigit_dec hc)
  have db : ∀ c ∈ dec b, ws c = false := fun c hc => h.digit _ (isDigit_dec hc)
  have ht : trim ws (['p', ' ', 'c', 'n', 'f', ' '] ++ dec a ++ [' '] ++ dec b) =
      'p' :: ' ' :: (['c', 'n', 'f', ' '] ++ dec a ++ [' '] ++ dec b) := by
    rcases List.eq_nil_or_concat (dec b) with e | ⟨i, z, e⟩
    · exact absurd e (dec_ne_nil _)
    · have hz : ws z = false := db z (by rw [e]; simp)
      rw [e]
      have := trim_ends (ws := ws) (a := 'p') (b := z)
        (m := [' ', 'c', 'n', 'f', ' '] ++ dec a ++ [' '] ++ i) h.p hz
      simpa using this
  have hw : wordsFrom ws [] (['c', 'n', 'f', ' '] ++ dec a ++ [' '] ++ dec b) =
      [['c', 'n', 'f'], dec a, dec b] := by
    have e : ['c', 'n', 'f', ' '] ++ dec a ++ [' '] ++ dec b =
        ['c', 'n', 'f'] ++ ' ' :: (dec a ++ ' ' :: dec b) := by simp
    rw [e, wordsFrom_word h.space (by simp [h.c, h.n, h.f]) (by simp), List.nil_append,
      wordsFrom_word h.space da (by simp [dec_ne_nil]), wordsFrom_last db (by simp [dec_ne_nil])]
    rfl
  unfold dLine
  rw [ht]
  simp only [dHeader, hw, parseUsize_dec ha, parseUsize_dec hb]
  simp

/-- **C24**: parsing the printed form of a formula whose literals are in range gives it back. (Packed
literals always have a variable below `2^31`; counts are `usize`.) -/
theorem C24_roundtrip (ws : Char → Bool) (h : DimacsSpace ws) (x : DimacsCnf)
    (hn : x.numVars < 2 ^ 64) (hm : x.clauses.length < 2 ^ 64)
    (hr : ∀ c ∈ x.clauses, ∀ l ∈ c, l.var < x.numVars ∧ l.var < 2 ^ 31) :
    dimacsParse ws (dimacsPrint x) = .ok x := by
  have e : dimacsPrint x = (['p', ' ', 'c', 'n', 'f', ' '] ++ dec x.numVars ++ [' '] ++
      dec x.clauses.length) ++ '\n' :: x.clauses.flatMap showClause := by
    unfold dimacsPrint; simp
  have hc : ∀ c ∈ ['p', ' ', 'c', 'n', 'f', ' '] ++ dec x.numVars ++ [' '] ++ dec x.clauses.length,
      c ≠ '\n' ∧ c ≠ '\r' := by
    intro c hc
    simp only [List.mem_append, List.mem_cons, List.not_mem_nil, or_false] at hc
    rcases hc with (((rfl | rfl | rfl | rfl | rfl | rfl) | hc) | rfl) | hc
    any_goals decide
    · exact clean_char (Or.inr (Or.inr (isDigit_dec hc)))
    · exact clean_char (Or.inr (Or.inr (isDigit_dec hc)))
  unfold dimacsParse
  rw [e, linesFrom_line (fun c h => (hc c h).1), List.nil_append, stripCr_id (fun c h => (hc c h).2),
    dLines, dHeader_line h hn hm]
  simp only
  rw [dLines_clauses h rfl rfl hr]
  simp

/-- Three variables, an empty clause and clauses of several sizes. -/
example : DimacsSpace asciiSpace ∧
    (∀ c ∈ [[(⟨0, true⟩ : Lit), ⟨2, false⟩], [], [⟨1, true⟩]], ∀ l ∈ c, l.var < 3 ∧ l.var < 2 ^ 31) ∧
    dimacsPrint ⟨3, [[⟨0, true⟩, ⟨2, false⟩], [], [⟨1, true⟩]]⟩ =
      ['p', ' ', 'c', 'n', 'f', ' ', '3', ' ', '3', '\n', '1', ' ', '-', '3', ' ', '0', '\n', '0', '\n',
        '2', ' ', '0', '\n'] := by
  refine ⟨asciiSpace_ok, by decide, by decide +kernel⟩

/-! ## Rejection -/

theorem dToken_range {nv : Nat} {st st' : DState} {t : List Char} (h : dToken nv st t = .ok st')
    (hc : ∀ c ∈ st.clauses, ∀ l ∈ c, l.var < nv) (hcur : ∀ l ∈ st.current, l.var < nv) :
    (∀ c ∈ st'.clauses, ∀ l ∈ c, l.var < nv) ∧ (∀ l ∈ st'.current, l.var < nv) ∧
      st'.header = st.header := by
  unfold dToken at h
  split at h
  · cases h
  · rename_i n hn
    split at h
    · simp only [Except.ok.injEq] at h
      rw [← h]
      refine ⟨?_, by simp, rfl⟩
      intro c hcm
      rcases List.mem_append.mp hcm with hcm | hcm
      · exact hc c hcm
      · rw [List.mem_singleton.mp hcm]; exact hcur
    · split at h
      · cases h
      · simp only [Except.ok.injEq] at h
        rw [← h]
        refine ⟨hc, ?_, rfl⟩
        intro l hl
        rcases List.mem_append.mp hl with hl | hl
        · exact hcur l hl
        · rw [List.mem_singleton.mp hl]
          show (n.natAbs - 1) % 2 ^ 31 < nv
          have := Nat.mod_le (n.natAbs - 1) (2 ^ 31)
          omega

theorem dTokens_range {nv : Nat} : ∀ {ts : List (List Char)} {st st' : DState},
    dTokens nv st ts = .ok st' → (∀ c ∈ st.clauses, ∀ l ∈ c, l.var < nv) →
    (∀ l ∈ st.current, l.var < nv) →
    (∀ c ∈ st'.clauses, ∀ l ∈ c, l.var < nv) ∧ (∀ l ∈ st'.current, l.var < nv) ∧
      st'.header = st.header := by
  intro ts
  induction ts with
  | nil =>
    intro st st' h h1 h2
    simp only [dTokens, Except.ok.injEq] at h
    rw [← h]; exact ⟨h1, h2, rfl⟩
  | cons t ts ih =>
    intro st st' h h1 h2
    rw [dTokens] at h
    split at h
    · cases h
    · rename_i st1 hst
      obtain ⟨k1, k2, k3⟩ := dToken_range hst h1 h2
      obtain ⟨j1, j2, j3⟩ := ih h k1 k2
      exact ⟨j1, j2, by rw [j3, k3]⟩

/-- Invariant of the line loop. -/
def DInv (st : DState) : Prop :=
  match st.header with
  | none => st.clauses = [] ∧ st.current = []
  | some nv => (∀ c ∈ st.clauses, ∀ l ∈ c, l.var < nv) ∧ ∀ l ∈ st.current, l.var < nv

theorem dLine_inv {ws : Char → Bool} {st st' : DState} {l : List Char} (h : dLine ws st l = .ok st')
    (hi : DInv st) : DInv st' := by
  unfold dLine at h
  split at h
  · simp only [Except.ok.injEq] at h; rw [← h]; exact hi
  · simp only [Except.ok.injEq] at h; rw [← h]; exact hi
  · unfold dHeader at h
    split at h
    · cases h
    · rename_i hnone
      have hn : st.header = none := by simpa using hnone
      unfold DInv at hi
      rw [hn] at hi
      split at h
      · split at h
        · split at h
          · cases h
          · split at h
            · cases h
            · simp only [Except.ok.injEq] at h
              rw [← h]
              unfold DInv
              simp [hi.1, hi.2]
        · cases h
      · cases h
  · split at h
    · cases h
    · rename_i nv hnv
      unfold DInv at hi
      rw [hnv] at hi
      obtain ⟨k1, k2, k3⟩ := dTokens_range h hi.1 hi.2
      unfold DInv
      rw [k3, hnv]
      exact ⟨k1, k2⟩

/-- **C24**: whatever text is accepted, every literal of the result is in range of the declared number
of variables. -/
theorem C24_in_range (ws : Char → Bool) (input : List Char) (x : DimacsCnf)
    (h : dimacsParse ws input = .ok x) : ∀ c ∈ x.clauses, ∀ l ∈ c, l.var < x.numVars := by
  have hl : ∀ (ls : List (List Char)) (st st' : DState), dLines ws st ls = .ok st' → DInv st →
      DInv st' := by
    intro ls
    induction ls with
    | nil => intro st st' h hi; simp only [dLines, Except.ok.injEq] at h; rw [← h]; exact hi
    | cons l ls ih =>
      intro st st' h hi
      rw [dLines] at h
      split at h
      · cases h
      · rename_i st1 h1
        exact ih _ _ h (dLine_inv h1 hi)
  unfold dimacsParse at h
  split at h
  · cases h
  · rename_i st hst
    have hi := hl _ _ _ hst (by simp [DInv])
    unfold DInv at hi
    split at h
    · cases h
    · rename_i nv hnv
      rw [hnv] at hi
      split at h
      · cases h
      · simp only [Except.ok.injEq] at h
        rw [← h]
        exact hi.1

/-- **C24**: a clause line is read as its numbers: layout does not matter, a clause may span lines and
lines may hold several clauses. -/
theorem C24_layout (ws : Char → Bool) (nv : Nat) (st : DState) (hh : st.header = some nv)
    (ls : List (List Char))
    (hl : ∀ l ∈ ls, ∃ a r, trim ws l = a :: r ∧ a ≠ 'c' ∧ a ≠ 'p') :
    dLines ws st ls = dTokens nv st (ls.flatMap (fun l => wordsFrom ws [] (trim ws l))) := by
  have happ : ∀ (ts us : List (List Char)) (st : DState), dTokens nv st (ts ++ us) =
      match dTokens nv st ts with
      | .error e => .error e
      | .ok st' => dTokens nv st' us := by
    intro ts
    induction ts with
    | nil => intro us st; rfl
    | cons t ts ih =>
      intro us st
      rw [List.cons_append, dTokens, dTokens]
      cases dToken nv st t with
      | error e => rfl
      | ok st' => exact ih us st'
  have hhead : ∀ (ts : List (List Char)) (st st' : DState), dTokens nv st ts = .ok st' →
      st'.header = st.header := by
    intro ts
    induction ts with
    | nil => intro st st' h; simp only [dTokens, Except.ok.injEq] at h; rw [← h]
    | cons t ts ih =>
      intro st st' h
      rw [dTokens] at h
      split at h
      · cases h
      · rename_i st1 h1
        rw [ih _ _ h]
        unfold dToken at h1
        split at h1
        · cases h1
        · split at h1
          · simp only [Except.ok.injEq] at h1; rw [← h1]
          · split at h1
            · cases h1
            · simp only [Except.ok.injEq] at h1; rw [← h1]
  induction ls generalizing st with
  | nil => rfl
  | cons l ls ih =>
    obtain ⟨a, r, ht, h1, h2⟩ := hl l (by simp)
    rw [dLines, dLine_body rfl ⟨a, r, ht, h1, h2⟩ hh, List.flatMap_cons, happ]
    cases hd : dTokens nv st (wordsFrom ws [] (trim ws l)) with
    | error e => rfl
    | ok st' =>
      simp only
      exact ih st' (by rw [hhead _ _ _ hd]; exact hh) (fun x hx => hl x (by simp [hx]))

example : dLines asciiSpace ⟨some 3, [], []⟩ [['1', ' ', '-', '2'], ['\t', '3', ' ', '0', ' ', '2', ' ', '0']] =
    .ok ⟨some 3, [[⟨0, true⟩, ⟨1, false⟩, ⟨2, true⟩], [⟨1, true⟩]], []⟩ := by
  decide +kernel

/-! ## Comments, the last line, unfinished clauses -/

theorem linesFrom_append : ∀ (a cur b : List Char),
    linesFrom cur (a ++ '\n' :: b) = linesFrom cur (a ++ ['\n']) ++ linesFrom [] b
  | [], cur, b => by simp [linesFrom]
  | c :: a, cur, b => by
    simp only [List.cons_append, linesFrom]
    split
    · rw [linesFrom_append a [] b]; rfl
    · exact linesFrom_append a _ b

theorem dLines_append (ws : Char → Bool) : ∀ (a b : List (List Char)) (st : DState),
    dLines ws st (a ++ b) = match dLines ws st a with
      | .error e => .error e
      | .ok st' => dLines ws st' b
  | [], b, st => rfl
  | l :: a, b, st => by
    simp only [List.cons_append, dLines]
    cases dLine ws st l with
    | error e => rfl
    | ok st' => exact dLines_append ws a b st'

theorem stripCr_cons_c (r : List Char) : ∃ r', stripCr ('c' :: r) = 'c' :: r' := by
  unfold stripCr
  split
  · rename_i h
    cases r with
    | nil => simp at h
    | cons x r => exact ⟨(x :: r).dropLast, rfl⟩
  · exact ⟨r, rfl⟩

theorem trim_cons_c {ws : Char → Bool} (h : ws 'c' = false) (r : List Char) :
    ∃ r', trim ws ('c' :: r) = 'c' :: r' := by
  unfold trim
  have h1 : ('c' :: r).dropWhile ws = 'c' :: r := by rw [List.dropWhile_cons, if_neg (by simp [h])]
  rw [h1, List.reverse_cons]
  have key : ∀ l : List Char, ∃ l', (l ++ ['c']).dropWhile ws = l' ++ ['c'] := by
    intro l
    induction l with
    | nil => exact ⟨[], by simp [h]⟩
    | cons x l ih =>
      rw [List.cons_append, List.dropWhile_cons]
      split
      · exact ih
      · exact ⟨x :: l, rfl⟩
  obtain ⟨l', e⟩ := key r.reverse
  exact ⟨l'.reverse, by rw [e]; simp⟩

theorem dLine_comment {ws : Char → Bool} (h : ws 'c' = false) (st : DState) (r : List Char) :
    dLine ws st (stripCr ('c' :: r)) = .ok st := by
  obtain ⟨r1, e1⟩ := stripCr_cons_c r
  obtain ⟨r2, e2⟩ := trim_cons_c h r1
  unfold dLine
  rw [e1, e2]
  rfl

/-- **C24**: a line that begins with `c`, whatever follows the `c`, at the start of the text or after
any other line, does not change what is read. -/
theorem C24_comments (ws : Char → Bool) (h : ws 'c' = false) (before comment after : List Char)
    (hb : before = [] ∨ ∃ b, before = b ++ ['\n']) (hc : ∀ x ∈ comment, x ≠ '\n') :
    dimacsParse ws (before ++ 'c' :: comment ++ '\n' :: after) = dimacsParse ws (before ++ after) := by
  have hc' : ∀ x ∈ 'c' :: comment, x ≠ '\n' := by
    intro x hx
    rcases List.mem_cons.mp hx with rfl | hx
    · decide
    · exact hc x hx
  have hl : linesFrom [] (('c' :: comment) ++ '\n' :: after) =
      stripCr ('c' :: comment) :: linesFrom [] after := linesFrom_line hc'
  have key : ∀ st, dLines ws st (linesFrom [] (before ++ 'c' :: comment ++ '\n' :: after)) =
      dLines ws st (linesFrom [] (before ++ after)) := by
    intro st
    rcases hb with rfl | ⟨b, rfl⟩
    · simp only [List.nil_append]
      rw [hl, dLines, dLine_comment h]
    · have e1 : b ++ ['\n'] ++ 'c' :: comment ++ '\n' :: after =
          b ++ '\n' :: (('c' :: comment) ++ '\n' :: after) := by simp
      have e2 : b ++ ['\n'] ++ after = b ++ '\n' :: after := by simp
      rw [e1, e2, linesFrom_append, linesFrom_append b [] after, dLines_append, dLines_append, hl]
      cases dLines ws st (linesFrom [] (b ++ ['\n'])) with
      | error e => rfl
      | ok st' => simp only [dLines, dLine_comment h]
  unfold dimacsParse
  rw [key]

example : asciiSpace 'c' = false ∧ (∀ x ∈ ['n', 'f', ' ', '7'], x ≠ '\n') ∧
    dimacsParse asciiSpace (['c', 'n', 'f', ' ', '7', '\n', 'p', ' ', 'c', 'n', 'f', ' ', '1', ' ', '1', '\n',
      '1', ' ', '0', '\n']) = .ok ⟨1, [[⟨0, true⟩]]⟩ := by
  refine ⟨by decide, by decide, by decide +kernel⟩

theorem linesFrom_end : ∀ {l cur : List Char}, (∀ c ∈ l, c ≠ '\n') → cur ++ l ≠ [] →
    linesFrom cur l = [cur ++ l]
  | [], cur, _, hne => by
    rw [List.append_nil] at hne ⊢
    rw [linesFrom, if_neg hne]
  | c :: l, cur, h, _ => by
    rw [linesFrom, if_neg (h c (by simp)), linesFrom_end (fun x hx => h x (by simp [hx])) (by simp)]
    simp

/-- The state after the printed form, before what follows it. -/
theorem printed_lines {ws : Char → Bool} (h : DimacsSpace ws) {x : DimacsCnf}
    (hn : x.numVars < 2 ^ 64) (hm : x.clauses.length < 2 ^ 64)
    (hr : ∀ c ∈ x.clauses, ∀ l ∈ c, l.var < x.numVars ∧ l.var < 2 ^ 31) :
    dLines ws ⟨none, [], []⟩ (linesFrom [] (dimacsPrint x)) = .ok ⟨some x.numVars, x.clauses, []⟩ := by
  have e := C24_roundtrip ws h x hn hm hr
  unfold dimacsParse at e
  cases hd : dLines ws ⟨none, [], []⟩ (linesFrom [] (dimacsPrint x)) with
  | error e' => rw [hd] at e; cases e
  | ok st =>
    rw [hd] at e
    simp only at e
    rcases st with ⟨hdr, cs, cur⟩
    cases hdr with
    | none => cases e
    | some nv =>
      simp only at e
      split at e
      · cases e
      · rename_i hcur
        simp only [ne_eq, not_not] at hcur
        simp only [Except.ok.injEq] at e
        rw [← e, hcur]

theorem print_ends (x : DimacsCnf) : ∃ a, dimacsPrint x = a ++ ['\n'] := by
  unfold dimacsPrint
  rcases List.eq_nil_or_concat x.clauses with e | ⟨cs, c, e⟩
  · rw [e]; exact ⟨_, by rw [List.flatMap_nil, List.append_nil]⟩
  · rw [e]
    refine ⟨['p', ' ', 'c', 'n', 'f', ' '] ++ dec x.numVars ++ [' '] ++ dec (cs ++ [c]).length ++ ['\n'] ++
      (cs.flatMap showClause ++ (c.flatMap showLit ++ ['0'])), ?_⟩
    simp [showClause]

theorem lines_after_print (x : DimacsCnf) (b : List Char) :
    linesFrom [] (dimacsPrint x ++ b) = linesFrom [] (dimacsPrint x) ++ linesFrom [] b := by
  obtain ⟨a, e⟩ := print_ends x
  rw [e]
  have : a ++ ['\n'] ++ b = a ++ '\n' :: b := by simp
  rw [this, linesFrom_append]

/-- **C24**: the line break at the end of the text may be missing. -/
theorem C24_last_line (ws : Char → Bool) (h : DimacsSpace ws) (x : DimacsCnf) (c : Clause)
    (hn : x.numVars < 2 ^ 64) (hm : x.clauses.length < 2 ^ 64)
    (hr : ∀ d ∈ c :: x.clauses, ∀ l ∈ d, l.var < x.numVars ∧ l.var < 2 ^ 31) :
    dimacsParse ws (dimacsPrint x ++ (c.flatMap showLit ++ ['0'])) =
      .ok { x with clauses := x.clauses ++ [c] } := by
  unfold dimacsParse
  rw [lines_after_print, dLines_append, printed_lines h hn hm (fun d hd => hr d (by simp [hd]))]
  simp only
  rw [linesFrom_end (fun y hy => (clean_char (clause_chars hy)).1) (by simp), List.nil_append, dLines,
    dLine_clause h rfl rfl (hr c (by simp))]
  simp [dLines]

theorem words_lits {ws : Char → Bool} (h : DimacsSpace ws) (l : Lit) : ∀ c : Clause,
    wordsFrom ws [] (c.flatMap showLit ++ showInt (litNum l)) =
      c.map (fun l => showInt (litNum l)) ++ [showInt (litNum l)]
  | [] => by
    have hw : ∀ x ∈ showInt (litNum l), ws x = false := by
      intro x hx
      rcases mem_showInt hx with rfl | hd
      · exact h.minus
      · exact h.digit _ hd
    have := wordsFrom_last (cur := []) hw (by simpa using showInt_ne_nil _)
    rw [List.nil_append] at this
    simpa using this
  | k :: c => by
    rw [List.flatMap_cons, showLit_eq, List.append_assoc, List.append_assoc, List.singleton_append,
      wordsFrom_word h.space, words_lits h l c]
    · simp
    · intro x hx
      rcases mem_showInt hx with rfl | hd
      · exact h.minus
      · exact h.digit _ hd
    · simpa using showInt_ne_nil _

/-- **C24**: a text that ends inside a clause is refused, and the unfinished clause is not silently
dropped or completed. -/
theorem C24_unfinished (ws : Char → Bool) (h : DimacsSpace ws) (x : DimacsCnf) (c : Clause) (l : Lit)
    (hn : x.numVars < 2 ^ 64) (hm : x.clauses.length < 2 ^ 64)
    (hr : ∀ d ∈ (c ++ [l]) :: x.clauses, ∀ k ∈ d, k.var < x.numVars ∧ k.var < 2 ^ 31) :
    dimacsParse ws (dimacsPrint x ++ (c.flatMap showLit ++ showInt (litNum l))) =
      .error .unterminatedClause := by
  have hchars : ∀ y ∈ c.flatMap showLit ++ showInt (litNum l), y = ' ' ∨ y = '-' ∨ y.isDigit = true := by
    intro y hy
    rcases List.mem_append.mp hy with hy | hy
    · obtain ⟨k, _, hk⟩ := List.mem_flatMap.mp hy
      exact showLit_chars hk
    · exact Or.inr (mem_showInt hy)
  have hns : ∀ y, (y = '-' ∨ y.isDigit = true) → ws y = false ∧ y ≠ 'c' ∧ y ≠ 'p' := by
    rintro y (rfl | hd)
    · exact ⟨h.minus, by decide, by decide⟩
    · refine ⟨h.digit _ hd, ?_, ?_⟩ <;> rintro rfl <;> simp at hd
  have hne : c.flatMap showLit ++ showInt (litNum l) ≠ [] := by
    intro e
    exact showInt_ne_nil _ (List.append_eq_nil_iff.mp e).2
  have hfirst : ∃ a r, c.flatMap showLit ++ showInt (litNum l) = a :: r ∧ (a = '-' ∨ a.isDigit = true) := by
    cases c with
    | nil =>
      cases hs : showInt (litNum l) with
      | nil => exact absurd hs (showInt_ne_nil _)
      | cons a r => exact ⟨a, r, rfl, mem_showInt (n := litNum l) (by rw [hs]; simp)⟩
    | cons k c =>
      cases hs : showInt (litNum k) with
      | nil => exact absurd hs (showInt_ne_nil _)
      | cons a r =>
        refine ⟨a, r ++ [' '] ++ c.flatMap showLit ++ showInt (litNum l), ?_,
          mem_showInt (n := litNum k) (by rw [hs]; simp)⟩
        rw [List.flatMap_cons, showLit_eq, hs]; simp
  have hlast : ∃ z, (c.flatMap showLit ++ showInt (litNum l)).getLast? = some z ∧ ws z = false := by
    rcases List.eq_nil_or_concat (showInt (litNum l)) with e | ⟨i, z, e⟩
    · exact absurd e (showInt_ne_nil _)
    · exact ⟨z, by rw [e]; simp, (hns z (mem_showInt (n := litNum l) (by rw [e]; simp))).1⟩
  obtain ⟨a, r, e, ha⟩ := hfirst
  obtain ⟨z, hz, hzw⟩ := hlast
  have htrim : trim ws (c.flatMap showLit ++ showInt (litNum l)) =
      c.flatMap showLit ++ showInt (litNum l) := by
    rw [e] at hz ⊢
    rcases List.eq_nil_or_concat r with e' | ⟨m, z', e'⟩
    · rw [e']; exact trim_id (by simp [(hns a ha).1])
    · rw [e'] at hz ⊢
      have hz' : z' = z := by
        have e2 : a :: (m.concat z') = (a :: m) ++ [z'] := by simp
        rw [e2, List.getLast?_append] at hz
        simpa using hz
      rw [hz']
      have := trim_ends (m := m) (hns a ha).1 hzw
      simpa using this
  unfold dimacsParse
  rw [lines_after_print, dLines_append, printed_lines h hn hm (fun d hd => hr d (by simp [hd]))]
  simp only
  rw [linesFrom_end (fun y hy => (clean_char (hchars y hy)).1) (by simpa using hne), List.nil_append,
    dLines, dLine_body htrim ⟨a, r, e, (hns a ha).2.1, (hns a ha).2.2⟩ rfl, words_lits h]
  have em : c.map (fun l => showInt (litNum l)) ++ [showInt (litNum l)] =
      (c ++ [l]).map (fun l => showInt (litNum l)) ++ [] := by simp
  rw [em, tokens_lits (hr _ (by simp))]
  simp [dTokens, dLines]

example : dimacsParse asciiSpace (dimacsPrint ⟨3, [[⟨1, true⟩]]⟩ ++
      ([(⟨0, true⟩ : Lit)].flatMap showLit ++ showInt (litNum ⟨2, false⟩))) = .error .unterminatedClause ∧
    dimacsPrint ⟨3, [[⟨1, true⟩]]⟩ ++ ([(⟨0, true⟩ : Lit)].flatMap showLit ++ showInt (litNum ⟨2, false⟩)) =
      ['p', ' ', 'c', 'n', 'f', ' ', '3', ' ', '1', '\n', '2', ' ', '0', '\n', '1', ' ', '-', '3'] := by
  refine ⟨C24_unfinished _ asciiSpace_ok _ _ _ (by decide) (by decide) (by decide), by decide +kernel⟩

/-- A number beyond the packed range is not refused when the header declares that many variables: the
single literal 2147483649 is read as variable 1 (index 0), so `2147483649 ∧ ¬1`, which is satisfiable,
is read as `1 ∧ ¬1`.  The module promises a typed error, "never a quietly mangled formula". -/
theorem C24_large_variable_fails :
    dLines asciiSpace ⟨none, [], []⟩
      [['p', ' ', 'c', 'n', 'f', ' ', '3', '0', '0', '0', '0', '0', '0', '0', '0', '0', ' ', '2'],
       ['2', '1', '4', '7', '4', '8', '3', '6', '4', '9', ' ', '0', ' ', '-', '1', ' ', '0']] =
    .ok ⟨some 3000000000, [[⟨0, true⟩], [⟨0, false⟩]], []⟩ := by
  decide +kernel

end Verif.Props
