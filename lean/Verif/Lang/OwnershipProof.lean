import Verif.Lang.Ownership
/-!
# The ownership checker is right about the programs of `FitsBlock`
-/

namespace Verif.Lang.Own

/-- `Moved` or `MaybeMoved` in a state. -/
def goneAt (st : Sym → Option VarState) (x : Sym) : Bool :=
  match st x with
  | some .moved => true
  | some .maybeMoved => true
  | _ => false

theorem gone_eq (k : Checker) (x : Sym) : k.gone x = goneAt k.st x := rfl

theorem goneAt_merge (a b : Sym → Option VarState) (x : Sym) :
    goneAt (mergeStates a b) x = (goneAt a x || goneAt b x) := by
  unfold goneAt mergeStates
  cases hb : b x with
  | none => cases ha : a x with
    | none => rfl
    | some v => cases v <;> rfl
  | some w => cases ha : a x with
    | none => cases w <;> rfl
    | some v => cases v <;> cases w <;> rfl

theorem put_st (k : Checker) (x y : Sym) (v : VarState) : (k.put x v).st y = if y = x then some v else k.st y := rfl

theorem gone_put_moved (k : Checker) (x y : Sym) (h : k.gone y = true) : (k.put x .moved).gone y = true := by
  rw [gone_eq] at *; unfold goneAt at *; rw [put_st]; by_cases e : y = x <;> simp [e] at *; exact h

theorem gone_put_ne (k : Checker) (x y : Sym) (v : VarState) (e : y ≠ x) : (k.put x v).gone y = k.gone y := by
  rw [gone_eq, gone_eq]; unfold goneAt; rw [put_st, if_neg e]

theorem gone_putTy (k : Checker) (x y : Sym) (b : Bool) : (k.putTy x b).gone y = k.gone y := rfl

theorem gone_passed (k : Checker) (e : OExpr) (y : Sym) (h : k.gone y = true) : (k.passed e).gone y = true := by
  cases e <;> simp only [Checker.passed] <;> try exact h
  split
  · exact h
  · exact gone_put_moved _ _ _ h

mutual
theorem gone_mark (y : Sym) : ∀ (e : OExpr) (k : Checker), k.gone y = true → (k.mark e).gone y = true
  | .lit _, k, h => by simpa only [Checker.mark] using h
  | .var _, k, h => by simpa only [Checker.mark] using h
  | .bin _ a b, k, h => by rw [Checker.mark]; exact gone_mark y b _ (gone_mark y a _ h)
  | .field a, k, h => by rw [Checker.mark]; exact gone_mark y a _ h
  | .index a b, k, h => by rw [Checker.mark]; exact gone_mark y b _ (gone_mark y a _ h)
  | .call args, k, h => by rw [Checker.mark]; exact gone_markArgs y args _ h
  | .callExpr _ args, k, h => by rw [Checker.mark]; exact gone_markArgs y args _ h
  | .parts _ _, k, h => by simpa only [Checker.mark] using h
  | .give _, k, h => by simpa only [Checker.mark] using h
  | .opaque _, k, h => by simpa only [Checker.mark] using h
theorem gone_markArgs (y : Sym) : ∀ (es : List OExpr) (k : Checker), k.gone y = true → (k.markArgs es).gone y = true
  | [], k, h => by simpa only [Checker.markArgs] using h
  | a :: as, k, h => by
    rw [Checker.markArgs]
    exact gone_markArgs y as _ (gone_mark y a _ (gone_passed k a y h))
end

theorem gone_passedAll (y : Sym) : ∀ (es : List OExpr) (k : Checker), k.gone y = true →
    (es.foldl Checker.passed k).gone y = true
  | [], _, h => h
  | e :: es, k, h => gone_passedAll y es _ (gone_passed k e y h)

theorem goneAt_foldl (x : Sym) : ∀ (ss : List (Sym → Option VarState)) (s : Sym → Option VarState),
    (goneAt s x = true ∨ ∃ t ∈ ss, goneAt t x = true) → goneAt (ss.foldl mergeStates s) x = true
  | [], s, h => by rcases h with h | ⟨t, ht, _⟩; exact h; cases ht
  | t :: ss, s, h => by
    refine goneAt_foldl x ss _ ?_
    rw [goneAt_merge]
    rcases h with h | ⟨u, hu, h⟩
    · exact .inl (by rw [h]; rfl)
    · rcases List.mem_cons.mp hu with rfl | hu
      · exact .inl (by rw [h, Bool.or_true])
      · exact .inr ⟨u, hu, h⟩

/-! ## What is gone outside a block stays gone -/

mutual
theorem stmt_mono (G : List Sym) (x : Sym) : ∀ (s : OStmt) (outer cur : List Sym) (loc : Option (List Sym))
    (k k' : Checker), k.stmt s = some k' → Fits G outer cur loc s → x ∈ outer → k.gone x = true → k'.gone x = true
  | .letS y e, outer, cur, loc, k, k', h, hf, hx, hg => by
    rw [Checker.stmt] at h
    split at h
    · injection h with h; subst h
      rw [Fits] at hf
      rw [gone_putTy, gone_put_ne _ _ _ _ (by rintro rfl; exact hf.1 hx)]
      exact gone_mark _ _ _ (gone_passed _ _ _ hg)
    · cases h
  | .giveS e, outer, cur, loc, k, k', h, hf, hx, hg => by
    rw [Checker.stmt.eq_def] at h
    simp only at h
    split at h <;> (try cases ‹OStmt.giveS _ = _›) <;> split at h <;> (try cases h)
    · exact gone_put_moved _ _ _ hg
    · exact hg
  | .showS e, outer, cur, loc, k, k', h, hf, hx, hg => by
    rw [Checker.stmt.eq_def] at h
    simp only at h
    split at h
    · split at h
      · rename_i y _
        split at h
        · rename_i hst
          injection h with h; subst h
          by_cases e : x = y
          · subst e
            rw [gone_eq] at hg; unfold goneAt at hg
            rcases hst with hst | hst <;> rw [hst] at hg <;> cases hg
          · rw [gone_put_ne _ _ _ _ e]; exact hg
        · injection h with h; subst h; exact hg
      · injection h with h; subst h; exact hg
    · cases h
  | .ifS c thn, outer, cur, loc, k, k', h, hf, hx, hg => by
    rw [Checker.stmt.eq_def] at h; simp only at h
    cases h1 : k.block thn with
    | none => rw [h1] at h; cases h
    | some k1 =>
      rw [h1] at h; simp only at h; injection h with h; subst h
      rw [gone_eq, goneAt_merge]; rw [gone_eq] at hg; simp only [hg, Bool.or_true]
  | .ifElse c thn els, outer, cur, loc, k, k', h, hf, hx, hg => by
    have hx' : x ∈ cur ++ outer := List.mem_append_right _ hx
    rw [Fits.eq_def] at hf; simp only at hf
    rw [Checker.stmt.eq_def] at h; simp only at h
    cases h1 : k.block thn with
    | none => rw [h1] at h; cases h
    | some k1 =>
      rw [h1] at h; simp only at h
      have := block_mono G x thn _ _ _ k k1 h1 hf.2.1 hx' hg
      cases h2 : Checker.block { k1 with st := k.st } els with
      | none => rw [h2] at h; cases h
      | some k2 =>
        rw [h2] at h; simp only at h; injection h with h; subst h
        rw [gone_eq, goneAt_merge]; rw [gone_eq] at this; simp only [this, Bool.true_or]
  | .whileS c body, outer, cur, loc, k, k', h, hf, hx, hg => by
    rw [Checker.stmt.eq_def] at h; simp only at h
    cases h1 : k.block body with
    | none => rw [h1] at h; cases h
    | some k1 =>
      rw [h1] at h; simp only at h; injection h with h; subst h
      rw [gone_eq, goneAt_merge]; rw [gone_eq] at hg; simp only [hg, Bool.true_or]
  | .repeatS y e body, outer, cur, loc, k, k', h, hf, hx, hg => by
    rw [Checker.stmt.eq_def] at h; simp only at h
    rw [Fits.eq_def] at hf; simp only at hf
    exact block_mono G x body _ _ _ k k' h hf.2.2 (List.mem_append_right _ hx) hg
  | .zone body, outer, cur, loc, k, k', h, hf, hx, hg => by
    rw [Checker.stmt.eq_def] at h; simp only at h
    rw [Fits.eq_def] at hf; simp only at hf
    exact block_mono G x body _ _ _ k k' h hf (List.mem_append_right _ hx) hg
  | .inspect e arms, outer, cur, loc, k, k', h, hf, hx, hg => by
    rw [Checker.stmt.eq_def] at h; simp only at h
    rw [Fits.eq_def] at hf; simp only at hf
    cases h1 : k.arms k.st arms with
    | none => rw [h1] at h; cases h
    | some p =>
      obtain ⟨k1, ss⟩ := p
      rw [h1] at h; simp only at h
      have hm := arms_mono G x arms _ _ k k.st k1 ss h1 hf.2 (List.mem_append_right _ hx) hg
      cases ss with
      | nil =>
        simp only at h; injection h with h; subst h
        cases arms with
        | nil => rw [Checker.arms] at h1; cases h1; exact hg
        | cons b bs =>
          rw [Checker.arms] at h1
          cases h2 : Checker.block { k with st := k.st } b with
          | none => rw [h2] at h1; cases h1
          | some k2 =>
            rw [h2] at h1; simp only at h1
            cases h3 : k2.arms k.st bs with
            | none => rw [h3] at h1; cases h1
            | some q => rw [h3] at h1; cases h1
      | cons s ss =>
        simp only at h; injection h with h; subst h
        rw [gone_eq]
        exact goneAt_foldl x ss s (.inl (hm s (List.mem_cons_self ..)))
  | .ret e, outer, cur, loc, k, k', h, hf, hx, hg => by
    rw [Checker.stmt.eq_def] at h
    cases e with
    | none => simp only at h; injection h with h; subst h; exact hg
    | some e =>
      simp only at h; split at h
      · injection h with h; subst h; exact gone_mark _ _ _ hg
      · cases h
  | .set y e, outer, cur, loc, k, k', h, hf, hx, hg => by
    rw [Checker.stmt.eq_def] at h; simp only at h
    split at h
    · injection h with h; subst h; exact gone_mark _ _ _ hg
    · cases h
  | .callS args, outer, cur, loc, k, k', h, hf, hx, hg => by
    rw [Checker.stmt.eq_def] at h; simp only at h
    split at h
    · injection h with h; subst h; exact gone_passedAll _ _ _ hg
    · cases h
  | .funDef ps body, outer, cur, loc, k, k', h, hf, hx, hg => by
    rw [Checker.stmt.eq_def] at h; simp only at h
    split at h
    · cases h
    · injection h with h; subst h; exact hg
  | .brk, outer, cur, loc, k, k', h, hf, hx, hg => by
    rw [Checker.stmt.eq_def] at h; simp only at h; injection h with h; subst h; exact hg
  | .other es, outer, cur, loc, k, k', h, hf, hx, hg => by
    rw [Checker.stmt.eq_def] at h; simp only at h; injection h with h; subst h; exact hg
theorem block_mono (G : List Sym) (x : Sym) : ∀ (b : List OStmt) (outer cur : List Sym) (loc : Option (List Sym))
    (k k' : Checker), k.block b = some k' → FitsBlock G outer cur loc b → x ∈ outer → k.gone x = true →
    k'.gone x = true
  | [], outer, cur, loc, k, k', h, hf, hx, hg => by rw [Checker.block] at h; injection h with h; subst h; exact hg
  | s :: ss, outer, cur, loc, k, k', h, hf, hx, hg => by
    rw [Checker.block] at h
    rw [FitsBlock] at hf
    cases h1 : k.stmt s with
    | none => rw [h1] at h; cases h
    | some k1 =>
      rw [h1] at h; simp only at h
      exact block_mono G x ss outer _ _ k1 k' h hf.2 hx (stmt_mono G x s outer cur loc k k1 h1 hf.1 hx hg)
theorem arms_mono (G : List Sym) (x : Sym) : ∀ (bs : List (List OStmt)) (outer : List Sym) (loc : Option (List Sym))
    (k : Checker) (before : Sym → Option VarState) (k' : Checker) (ss : List (Sym → Option VarState)),
    k.arms before bs = some (k', ss) → FitsArms G outer loc bs → x ∈ outer → goneAt before x = true →
    ∀ s ∈ ss, goneAt s x = true
  | [], outer, loc, k, before, k', ss, h, hf, hx, hg => by
    rw [Checker.arms] at h; cases h; intro s hs; cases hs
  | b :: bs, outer, loc, k, before, k', ss, h, hf, hx, hg => by
    rw [Checker.arms] at h
    rw [FitsArms] at hf
    cases h2 : Checker.block { k with st := before } b with
    | none => rw [h2] at h; cases h
    | some k2 =>
      rw [h2] at h; simp only at h
      cases h3 : k2.arms before bs with
      | none => rw [h3] at h; cases h
      | some q =>
        obtain ⟨k3, ts⟩ := q
        rw [h3] at h; simp only at h; cases h
        intro s hs
        rcases List.mem_cons.mp hs with rfl | hs
        · exact block_mono G x b outer [] loc _ k2 h2 hf.1 hx hg
        · exact arms_mono G x bs outer loc k2 before _ _ h3 hf.2 hx hg s hs
end

/-! ## Events -/

theorem happen_quiet (o : Owns) : ∀ (evs : List Event), (∀ ev ∈ evs, ∃ x, ev = .use x ∧ isGiven o x = false) →
    happen evs o = some o
  | [], _ => rfl
  | ev :: evs, h => by
    obtain ⟨x, rfl, hx⟩ := h ev (List.mem_cons_self ..)
    rw [happen, hx]
    exact happen_quiet o evs fun ev hev => h ev (List.mem_cons_of_mem _ hev)

/-- Whatever has been given away is gone for the checker. -/
def Inv (o : Owns) (k : Checker) : Prop := ∀ x, isGiven o x = true → k.gone x = true

/-- Only names of `G` have been given away. -/
def GivenIn (o : Owns) (G : List Sym) : Prop := ∀ x, isGiven o x = true → x ∈ G

theorem quiet_happen {G : List Sym} {evs : List Event} {o : Owns} (hq : Quiet G evs) (hg : GivenIn o G) :
    happen evs o = some o := by
  refine happen_quiet o evs fun ev hev => ?_
  obtain ⟨x, rfl, hx⟩ := hq ev hev
  refine ⟨x, rfl, ?_⟩
  cases h : isGiven o x
  · rfl
  · exact absurd (hg x h) hx

mutual
theorem clean_uses {G : List Sym} {o : Owns} {k : Checker} (hi : Inv o k) (hg : GivenIn o G) : ∀ (e : OExpr),
    clean G e → k.notMoved e = true → ∀ ev ∈ events e, ∃ x, ev = .use x ∧ isGiven o x = false
  | .lit _, _, _ => by intro ev hev; rw [events] at hev; cases hev
  | .var x, _, hn => by
    intro ev hev
    rw [events] at hev
    rcases List.mem_cons.mp hev with rfl | hev
    · refine ⟨x, rfl, ?_⟩
      cases h : isGiven o x
      · rfl
      · rw [Checker.notMoved, hi x h] at hn; cases hn
    · cases hev
  | .bin _ a b, hc, hn => by
    rw [clean] at hc; rw [Checker.notMoved, Bool.and_eq_true] at hn
    intro ev hev
    rw [events] at hev
    rcases List.mem_append.mp hev with hev | hev
    · exact clean_uses hi hg a hc.1 hn.1 ev hev
    · exact clean_uses hi hg b hc.2 hn.2 ev hev
  | .field a, hc, hn => by
    rw [clean] at hc; rw [Checker.notMoved] at hn; rw [events]
    exact clean_uses hi hg a hc hn
  | .index a b, hc, hn => by
    rw [clean] at hc; rw [Checker.notMoved, Bool.and_eq_true] at hn
    intro ev hev
    rw [events] at hev
    rcases List.mem_append.mp hev with hev | hev
    · exact clean_uses hi hg a hc.1 hn.1 ev hev
    · exact clean_uses hi hg b hc.2 hn.2 ev hev
  | .call args, hc, hn => by
    rw [clean] at hc; rw [Checker.notMoved] at hn; rw [events]
    exact clean_usesAll hi hg args hc hn
  | .callExpr c args, hc, hn => by
    rw [clean] at hc; rw [Checker.notMoved, Bool.and_eq_true] at hn
    intro ev hev
    rw [events] at hev
    rcases List.mem_append.mp hev with hev | hev
    · exact clean_uses hi hg c hc.1 hn.1 ev hev
    · exact clean_usesAll hi hg args hc.2 hn.2 ev hev
  | .parts _ es, hc, hn => by
    rw [clean] at hc; rw [Checker.notMoved] at hn; rw [events]
    exact clean_usesAll hi hg es hc hn
  | .give _, hc, _ => by rw [clean] at hc; exact hc.elim
  | .opaque xs, hc, _ => by
    rw [clean] at hc
    intro ev hev
    rw [events] at hev
    obtain ⟨x, hx, rfl⟩ := List.mem_map.mp hev
    refine ⟨x, rfl, ?_⟩
    cases h : isGiven o x
    · rfl
    · exact absurd (hg x h) (hc x hx)
theorem clean_usesAll {G : List Sym} {o : Owns} {k : Checker} (hi : Inv o k) (hg : GivenIn o G) : ∀ (es : List OExpr),
    cleanAll G es → k.notMovedAll es = true → ∀ ev ∈ eventsAll es, ∃ x, ev = .use x ∧ isGiven o x = false
  | [], _, _ => by intro ev hev; rw [eventsAll] at hev; cases hev
  | e :: es, hc, hn => by
    rw [cleanAll] at hc; rw [Checker.notMovedAll, Bool.and_eq_true] at hn
    intro ev hev
    rw [eventsAll] at hev
    rcases List.mem_append.mp hev with hev | hev
    · exact clean_uses hi hg e hc.1 hn.1 ev hev
    · exact clean_usesAll hi hg es hc.2 hn.2 ev hev
end

/-! ## Bindings -/

/-- The names bound. -/
abbrev names (o : Owns) : List Sym := o.map Prod.fst

theorem names_give (x : Sym) : ∀ o : Owns, names (give o x) = names o
  | [] => rfl
  | (y, g) :: o => by
    rw [give]; split
    · rfl
    · show y :: names (give o x) = _; rw [names_give x o]; rfl

theorem isGiven_give (x y : Sym) : ∀ o : Owns, isGiven (give o x) y = true → y = x ∨ isGiven o y = true
  | [], h => .inr h
  | (z, g) :: o, h => by
    rw [give] at h
    split at h
    · rename_i e
      rw [isGiven] at h
      split at h
      · rename_i e2; exact .inl (e2.symm.trans e)
      · rename_i e2; right; rw [isGiven, if_neg e2]; exact h
    · rw [isGiven] at h
      split at h
      · rename_i e2; right; rw [isGiven, if_pos e2]; exact h
      · rename_i e2
        rcases isGiven_give x y o h with h | h
        · exact .inl h
        · right; rw [isGiven, if_neg e2]; exact h

theorem isGiven_mem (x : Sym) : ∀ o : Owns, isGiven o x = true → x ∈ names o
  | [], h => by cases h
  | (y, g) :: o, h => by
    rw [isGiven] at h
    split at h
    · rename_i e; subst e; exact List.mem_cons_self ..
    · exact List.mem_cons_of_mem _ (isGiven_mem x o h)

theorem isGiven_append (x : Sym) (b : Owns) : ∀ a : Owns, x ∉ names a → isGiven (a ++ b) x = isGiven b x
  | [], _ => rfl
  | (y, g) :: a, h => by
    have h1 : y ≠ x := fun e => h (by subst e; exact List.mem_cons_self ..)
    have h2 : x ∉ names a := fun m => h (List.mem_cons_of_mem _ m)
    show isGiven ((y, g) :: (a ++ b)) x = _
    rw [isGiven, if_neg h1, isGiven_append x b a h2]

theorem give_append (x : Sym) (b : Owns) : ∀ a : Owns, x ∈ names a → give (a ++ b) x = give a x ++ b
  | [], h => by cases h
  | (y, g) :: a, h => by
    show give ((y, g) :: (a ++ b)) x = _
    rw [give, give]
    split
    · rfl
    · rename_i e
      rcases List.mem_cons.mp h with h | h
      · exact absurd h.symm e
      · rw [give_append x b a h]; rfl

theorem length_give (x : Sym) (o : Owns) : (give o x).length = o.length := by
  have := congrArg List.length (names_give x o)
  simpa [names] using this

/-- Leaving a block that bound `new` on top of `o1`. -/
theorem leave_names {o1 o2 : Owns} {new : List Sym} (h : names o2 = new ++ names o1) :
    names (leave o1.length o2) = names o1 := by
  unfold leave names
  rw [List.map_drop]
  have hl : o2.length = new.length + o1.length := by
    have := congrArg List.length h; simpa [names] using this
  rw [hl, Nat.add_sub_cancel]
  unfold names at h
  rw [h, List.drop_left']
  rfl

theorem leave_given {o1 o2 : Owns} {new : List Sym} (h : names o2 = new ++ names o1)
    (hn : ∀ x ∈ new, x ∉ names o1) (x : Sym) (hx : isGiven (leave o1.length o2) x = true) : isGiven o2 x = true := by
  have hm : x ∈ names o1 := by rw [← leave_names h]; exact isGiven_mem x _ hx
  have hl : o2.length = new.length + o1.length := by
    have := congrArg List.length h; simpa [names] using this
  have hs : o2 = o2.take new.length ++ leave o1.length o2 := by
    unfold leave; rw [hl, Nat.add_sub_cancel]; exact (List.take_append_drop ..).symm
  rw [hs, isGiven_append]
  · exact hx
  · intro hx2
    unfold names at hx2 h
    rw [List.map_take, h, List.take_left'] at hx2
    · exact hn x hx2 hm
    · rfl

theorem leave_append {l base : Owns} : leave base.length (l ++ base) = base := by
  unfold leave
  rw [List.length_append, Nat.add_sub_cancel, List.drop_left' rfl]

theorem leave_split {o1 l l' base : Owns} (ho : o1 = l ++ base) (hl : l.length ≤ l'.length) :
    ∃ l'', leave o1.length (l' ++ base) = l'' ++ base ∧ l''.length = l.length := by
  subst ho
  refine ⟨l'.drop (l'.length - l.length), ?_, by rw [List.length_drop]; omega⟩
  unfold leave
  rw [List.length_append, List.length_append, Nat.add_sub_add_right, List.drop_append_of_le_length (by omega)]

theorem isGiven_bind (x : Sym) (o : Owns) : ∀ xs : List Sym,
    isGiven (xs.map (fun x => (x, false)) ++ o) x = true → isGiven o x = true ∧ x ∉ xs
  | [], h => ⟨h, (by intro h; cases h)⟩
  | y :: xs, h => by
    rw [List.map_cons, List.cons_append, isGiven] at h
    split at h
    · cases h
    · rename_i e
      obtain ⟨h1, h2⟩ := isGiven_bind x o xs h
      refine ⟨h1, ?_⟩
      intro hm
      rcases List.mem_cons.mp hm with hm | hm
      · exact e hm.symm
      · exact h2 hm

theorem names_bind (o : Owns) (xs : List Sym) : names (xs.map (fun x => (x, false)) ++ o) = xs ++ names o := by
  unfold names; rw [List.map_append, List.map_map]
  congr 1
  induction xs with
  | nil => rfl
  | cons x xs ih => rw [List.map_cons, ih]; rfl

/-! ## Statements without blocks -/

/-- The part of the bindings below those made since the beginning of the loop body is untouched. -/
def Local (loc : Option (List Sym)) (o o' : Owns) : Prop :=
  ∀ D l base, loc = some D → o = l ++ base → (∀ x ∈ D, x ∈ names l) →
    ∃ l', o' = l' ++ base ∧ ∃ new, names l' = new ++ names l

theorem Local.refl (loc : Option (List Sym)) (o : Owns) : Local loc o o :=
  fun _ l _ _ ho _ => ⟨l, ho, [], rfl⟩

theorem effect_check {G outer cur : List Sym} {loc : Option (List Sym)} {s : OStmt} {k k' : Checker} {o : Owns}
    {evs : List Event} {xs : List Sym} (he : effect s = some (evs, xs)) (hk : k.stmt s = some k')
    (hf : Fits G outer cur loc s) (hi : Inv o k) (hg : GivenIn o G) :
    ∃ o1, happen evs o = some o1 ∧ xs = declares s ∧ (∀ x ∈ xs, x ∉ outer) ∧
      Inv (xs.map (fun x => (x, false)) ++ o1) k' ∧ GivenIn o1 G ∧ names o1 = names o ∧ Local loc o o1 := by
  have fin : ∀ (k1 : Checker), (∀ x, k.gone x = true → k1.gone x = true) →
      ∀ e, clean G e → k.notMoved e = true → ∃ o1, happen (events e) o = some o1 ∧ (∀ x ∈ ([] : List Sym), x ∉ outer) ∧
      Inv (([] : List Sym).map (fun x => (x, false)) ++ o1) k1 ∧ GivenIn o1 G ∧ names o1 = names o ∧ Local loc o o1 := by
    intro k1 hm e hc hn
    exact ⟨o, happen_quiet o _ (clean_uses hi hg e hc hn), (by intro x hx; cases hx),
      fun x hx => hm x (hi x hx), hg, rfl, Local.refl loc o⟩
  cases s <;> rw [effect.eq_def] at he <;> simp only at he <;> try (cases he; done)
  case letS x e =>
    cases he
    rw [Checker.stmt] at hk
    split at hk
    · rename_i hn
      injection hk with hk; subst hk
      rw [Fits] at hf
      refine ⟨o, happen_quiet o _ (clean_uses hi hg e hf.2 hn), rfl, ?_, ?_, hg, rfl, Local.refl loc o⟩
      · intro y hy; rcases List.mem_cons.mp hy with rfl | hy
        · exact hf.1
        · cases hy
      · intro y hy
        obtain ⟨hy1, hy2⟩ := isGiven_bind y o [x] hy
        rw [gone_putTy, gone_put_ne _ _ _ _ (by rintro rfl; exact hy2 (List.mem_cons_self ..))]
        exact gone_mark _ _ _ (gone_passed _ _ _ (hi y hy1))
    · cases hk
  case giveS e =>
    cases e <;> simp only at he
    case var x =>
      cases he
      rw [Checker.stmt] at hk
      split at hk
      · cases hk
      rename_i hn
      injection hk with hk; subst hk
      rw [Fits] at hf
      have hx : isGiven o x = false := by
        cases h : isGiven o x
        · rfl
        · exact absurd (hi x h) hn
      refine ⟨give o x, by rw [happen, hx]; rfl, rfl, (by intro y hy; cases hy), ?_, ?_, names_give x o, ?_⟩
      · intro y hy
        rcases isGiven_give x y o hy with rfl | hy
        · rw [gone_eq]; unfold goneAt; rw [put_st, if_pos rfl]
        · exact gone_put_moved _ _ _ (hi y hy)
      · intro y hy
        rcases isGiven_give x y o hy with rfl | hy
        · exact hf.1
        · exact hg y hy
      · intro D l base hD ho hl
        subst ho
        exact ⟨give l x, give_append x base l (hl x (hf.2 D hD)), [], names_give x l⟩
    all_goals
      cases he
      rw [Checker.stmt.eq_def] at hk; simp only at hk
      rw [Fits.eq_def] at hf; simp only at hf
      split at hk
      · rename_i hn
        injection hk with hk; subst hk
        obtain ⟨o1, h1, h2⟩ := fin k (fun _ h => h) _ hf hn
        exact ⟨o1, h1, rfl, h2⟩
      · cases hk
  case showS e =>
    cases he
    have hm := fun x => stmt_mono G x (.showS e) [x] [] none k k' hk (by rw [Fits.eq_def] at hf ⊢; exact hf)
      (List.mem_cons_self ..)
    rw [Checker.stmt.eq_def] at hk; simp only at hk
    rw [Fits.eq_def] at hf; simp only at hf
    split at hk
    · rename_i hn
      obtain ⟨o1, h1, h2⟩ := fin k' hm _ hf hn
      exact ⟨o1, h1, rfl, h2⟩
    · cases hk
  case set y e =>
    cases he
    rw [Checker.stmt.eq_def] at hk; simp only at hk
    rw [Fits.eq_def] at hf; simp only at hf
    split at hk
    · rename_i hn
      injection hk with hk; subst hk
      obtain ⟨o1, h1, h2⟩ := fin _ (fun x h => gone_mark x e k h) _ hf hn
      exact ⟨o1, h1, rfl, h2⟩
    · cases hk
  case callS args =>
    cases he
    rw [Checker.stmt.eq_def] at hk; simp only at hk
    rw [Fits.eq_def] at hf; simp only at hf
    split at hk
    · rename_i hn
      injection hk with hk; subst hk
      exact ⟨o, happen_quiet o _ (clean_usesAll hi hg args hf hn), rfl, (by intro x hx; cases hx),
        fun x hx => gone_passedAll x args k (hi x hx), hg, rfl, Local.refl loc o⟩
    · cases hk
  case other es =>
    cases he
    rw [Checker.stmt.eq_def] at hk; simp only at hk; injection hk with hk; subst hk
    rw [Fits.eq_def] at hf; simp only at hf
    exact ⟨o, quiet_happen hf hg, rfl, (by intro x hx; cases hx), hi, hg, rfl, Local.refl loc o⟩

/-! ## Statements with blocks -/

theorem arms_check {G outer : List Sym} {loc : Option (List Sym)} {b : List OStmt} : ∀ (bs : List (List OStmt))
    (k : Checker) (before : Sym → Option VarState) (k' : Checker) (ss : List (Sym → Option VarState)),
    k.arms before bs = some (k', ss) → FitsArms G outer loc bs → b ∈ bs →
    FitsBlock G outer [] loc b ∧ ∃ kb kb' : Checker, kb.st = before ∧ kb.block b = some kb' ∧ kb'.st ∈ ss
  | [], k, before, k', ss, h, hf, hb => by cases hb
  | a :: bs, k, before, k', ss, h, hf, hb => by
    rw [Checker.arms] at h
    rw [FitsArms] at hf
    cases h2 : Checker.block { k with st := before } a with
    | none => rw [h2] at h; cases h
    | some k2 =>
      rw [h2] at h; simp only at h
      cases h3 : k2.arms before bs with
      | none => rw [h3] at h; cases h
      | some q =>
        obtain ⟨k3, ts⟩ := q
        rw [h3] at h; simp only at h; cases h
        rcases List.mem_cons.mp hb with rfl | hb
        · exact ⟨hf.1, _, k2, rfl, h2, List.mem_cons_self ..⟩
        · obtain ⟨h4, kb, kb', h5, h6, h7⟩ := arms_check bs k2 before _ _ h3 hf.2 hb
          exact ⟨h4, kb, kb', h5, h6, List.mem_cons_of_mem _ h7⟩

theorem Fits_weaken_outer {G outer cur : List Sym} {loc : Option (List Sym)} {s : OStmt} {bs : List (List OStmt)}
    {c : OExpr} (hb : branches s = some (c, bs)) (hf : Fits G outer cur loc s) : Fits G (cur ++ outer) [] loc s := by
  cases s <;> first
    | (rw [branches.eq_def] at hb; cases hb; done)
    | (rw [Fits.eq_def] at hf ⊢; exact hf)

theorem branch_check {G outer cur : List Sym} {loc : Option (List Sym)} {s : OStmt} {k k' : Checker}
    {bs : List (List OStmt)} {c : OExpr} {b : List OStmt} (hb : branches s = some (c, bs)) (hk : k.stmt s = some k')
    (hf : Fits G outer cur loc s) (hm : b ∈ bs) :
    Quiet G (events c) ∧ FitsBlock G (cur ++ outer) [] loc b ∧ ∃ kb kb' : Checker, kb.st = k.st ∧
      kb.block b = some kb' ∧ ∀ x ∈ cur ++ outer, kb'.gone x = true → k'.gone x = true := by
  have mono := fun x hx => stmt_mono G x s (cur ++ outer) [] loc k k' hk (Fits_weaken_outer hb hf) hx
  have skip : ∃ kb kb' : Checker, kb.st = k.st ∧ kb.block [] = some kb' ∧
      ∀ x ∈ cur ++ outer, kb'.gone x = true → k'.gone x = true := ⟨k, k, rfl, by rw [Checker.block], mono⟩
  cases s <;> rw [branches.eq_def] at hb <;> simp only at hb <;> try (cases hb; done)
  case ifS c thn =>
    cases hb
    rw [Fits.eq_def] at hf; simp only at hf
    rw [Checker.stmt.eq_def] at hk; simp only at hk
    cases h1 : k.block thn with
    | none => rw [h1] at hk; cases hk
    | some k1 =>
      rw [h1] at hk; simp only at hk
      rcases List.mem_cons.mp hm with rfl | hm
      · refine ⟨hf.1, hf.2, k, k1, rfl, h1, ?_⟩
        intro x _ hx
        injection hk with hk; subst hk
        rw [gone_eq, goneAt_merge]; rw [gone_eq] at hx; simp only [hx, Bool.true_or]
      · rcases List.mem_cons.mp hm with rfl | hm
        · exact ⟨hf.1, by rw [FitsBlock]; trivial, skip⟩
        · cases hm
  case ifElse c thn els =>
    cases hb
    rw [Fits.eq_def] at hf; simp only at hf
    rw [Checker.stmt.eq_def] at hk; simp only at hk
    cases h1 : k.block thn with
    | none => rw [h1] at hk; cases hk
    | some k1 =>
      rw [h1] at hk; simp only at hk
      cases h2 : Checker.block { k1 with st := k.st } els with
      | none => rw [h2] at hk; cases hk
      | some k2 =>
        rw [h2] at hk; simp only at hk; injection hk with hk; subst hk
        rcases List.mem_cons.mp hm with rfl | hm
        · refine ⟨hf.1, hf.2.1, k, k1, rfl, h1, ?_⟩
          intro x _ hx
          rw [gone_eq, goneAt_merge]; rw [gone_eq] at hx; simp only [hx, Bool.true_or]
        · rcases List.mem_cons.mp hm with rfl | hm
          · refine ⟨hf.1, hf.2.2, { k1 with st := k.st }, k2, rfl, h2, ?_⟩
            intro x _ hx
            rw [gone_eq, goneAt_merge]; rw [gone_eq] at hx; simp only [hx, Bool.or_true]
          · cases hm
  case zone body =>
    cases hb
    rw [Fits.eq_def] at hf; simp only at hf
    rw [Checker.stmt.eq_def] at hk; simp only at hk
    rcases List.mem_cons.mp hm with rfl | hm
    · exact ⟨(by intro ev hev; rw [events] at hev; cases hev), hf, k, k', rfl, hk, fun _ _ h => h⟩
    · cases hm
  case inspect e arms =>
    cases hb
    rw [Fits.eq_def] at hf; simp only at hf
    rw [Checker.stmt.eq_def] at hk; simp only at hk
    rcases List.mem_cons.mp hm with rfl | hm
    · exact ⟨hf.1, by rw [FitsBlock]; trivial, skip⟩
    · cases h1 : k.arms k.st arms with
      | none => rw [h1] at hk; cases hk
      | some p =>
        obtain ⟨k1, ss⟩ := p
        rw [h1] at hk; simp only at hk
        obtain ⟨h4, kb, kb', h5, h6, h7⟩ := arms_check arms k k.st k1 ss h1 hf.2 hm
        refine ⟨hf.1, h4, kb, kb', h5, h6, ?_⟩
        intro x _ hx
        cases ss with
        | nil => cases h7
        | cons t ts =>
          simp only at hk; injection hk with hk; subst hk
          rw [gone_eq] at hx ⊢
          refine goneAt_foldl x ts t ?_
          rcases List.mem_cons.mp h7 with h7 | h7
          · exact .inl (h7 ▸ hx)
          · exact .inr ⟨_, h7, hx⟩

theorem loop_check {G outer cur : List Sym} {loc : Option (List Sym)} {s : OStmt} {k k' : Checker} {x : Option Sym}
    {pre cond : List Event} {body : List OStmt} (hl : loopOf s = some (x, pre, cond, body))
    (hk : k.stmt s = some k') (hf : Fits G outer cur loc s) :
    Quiet G pre ∧ Quiet G cond ∧ (∀ y ∈ x.toList, y ∉ cur ++ outer) ∧
      FitsBlock G (cur ++ outer) x.toList (some x.toList) body ∧ (∃ kb, k.block body = some kb) ∧
      ∀ y ∈ cur ++ outer, k.gone y = true → k'.gone y = true := by
  cases s <;> rw [loopOf.eq_def] at hl <;> simp only at hl <;> try (cases hl; done)
  case whileS c body =>
    cases hl
    have mono := fun x hx => stmt_mono G x (.whileS c body) (cur ++ outer) [] loc k k' hk
      (by rw [Fits.eq_def] at hf ⊢; exact hf) hx
    rw [Fits.eq_def] at hf; simp only at hf
    rw [Checker.stmt.eq_def] at hk; simp only at hk
    cases h1 : k.block body with
    | none => rw [h1] at hk; cases hk
    | some k1 => exact ⟨(by intro _ h; cases h), hf.1, (by intro _ h; cases h), hf.2, ⟨k1, rfl⟩, mono⟩
  case repeatS y e body =>
    cases hl
    have mono := fun x hx => stmt_mono G x (.repeatS y e body) (cur ++ outer) [] loc k k' hk
      (by rw [Fits.eq_def] at hf ⊢; exact hf) hx
    rw [Fits.eq_def] at hf; simp only at hf
    rw [Checker.stmt.eq_def] at hk; simp only at hk
    refine ⟨hf.1, (by intro _ h; cases h), ?_, hf.2.2, ⟨k', hk⟩, mono⟩
    intro z hz
    rcases List.mem_cons.mp hz with rfl | hz
    · exact hf.2.1
    · cases hz

/-! ## Runs -/

/-- What holds after a block. -/
structure After (G outer cur : List Sym) (loc : Option (List Sym)) (o o' : Owns) : Prop where
  given : GivenIn o' G
  names : ∃ new, names o' = new ++ (cur ++ outer) ∧ ∀ x ∈ new, x ∉ outer
  loc : Local loc o o'

/-- What holds of a run: for a block, and for the iterations of a loop. -/
def Good (c : Code) (o : Owns) (out : Outcome) : Prop :=
  match c with
  | .block b => ∀ (G outer cur : List Sym) (loc : Option (List Sym)) (k k' : Checker), k.block b = some k' →
      FitsBlock G outer cur loc b → Inv o k → GivenIn o G → names o = cur ++ outer →
      out ≠ .bad ∧ (∀ o', out = .ok o' → Inv o' k') ∧
      ∀ o', out = .ok o' ∨ out = .brk o' → After G outer cur loc o o'
  | .loop x cond body => ∀ (G outer : List Sym) (k kb : Checker), k.block body = some kb →
      FitsBlock G outer x.toList (some x.toList) body → Quiet G cond → (∀ y ∈ x.toList, y ∉ outer) → Inv o k →
      GivenIn o G → names o = outer → out ≠ .bad ∧ ∀ o', out = .ok o' → o' = o

theorem block_cons {k k' : Checker} {s : OStmt} {r : List OStmt} (h : k.block (s :: r) = some k') :
    ∃ k1, k.stmt s = some k1 ∧ k1.block r = some k' := by
  rw [Checker.block] at h
  cases h1 : k.stmt s with
  | none => rw [h1] at h; cases h
  | some k1 => rw [h1] at h; exact ⟨k1, rfl, h⟩

theorem Local.trans {loc : Option (List Sym)} {o o1 o2 : Owns} {xs : List Sym} (h1 : Local loc o o1)
    (h2 : Local (loc.map (xs ++ ·)) (xs.map (fun x => (x, false)) ++ o1) o2) : Local loc o o2 := by
  intro D l base hD ho hl
  obtain ⟨l1, e1, new1, n1⟩ := h1 D l base hD ho hl
  obtain ⟨l2, e2, new2, n2⟩ := h2 (xs ++ D) (xs.map (fun x => (x, false)) ++ l1) base (by rw [hD]; rfl)
    (by rw [e1, List.append_assoc]) (by
      intro x hx
      rw [names_bind]
      rcases List.mem_append.mp hx with hx | hx
      · exact List.mem_append_left _ hx
      · exact List.mem_append_right _ (by rw [n1]; exact List.mem_append_right _ (hl x hx)))
  refine ⟨l2, e2, new2 ++ xs ++ new1, ?_⟩
  rw [n2, names_bind, n1]
  simp only [List.append_assoc]

/-- Leaving a nested block. -/
theorem Local.leave {loc : Option (List Sym)} {o o2 : Owns} (h : Local loc o o2) :
    Local loc o (leave o.length o2) := by
  intro D l base hD ho hl
  obtain ⟨l1, e1, new1, n1⟩ := h D l base hD ho hl
  have hlen : l1.length = new1.length + l.length := by
    have := congrArg List.length n1; simpa [names] using this
  refine ⟨l1.drop new1.length, ?_, [], ?_⟩
  · subst ho e1
    unfold Own.leave
    rw [List.length_append, List.length_append, hlen, Nat.add_sub_add_right, Nat.add_sub_cancel,
      List.drop_append_of_le_length (by omega)]
  · unfold names at n1 ⊢
    rw [List.map_drop, n1, List.drop_left' rfl]; rfl

theorem After.nested {G outer cur : List Sym} {loc : Option (List Sym)} {o o2 : Owns}
    (h : After G (cur ++ outer) [] loc o o2) (hn : Own.names o = cur ++ outer) :
    GivenIn (Own.leave o.length o2) G ∧ Own.names (Own.leave o.length o2) = cur ++ outer ∧
      Local loc o (Own.leave o.length o2) ∧ ∀ x, isGiven (Own.leave o.length o2) x = true → isGiven o2 x = true := by
  obtain ⟨new, e, f⟩ := h.names
  rw [List.nil_append, ← hn] at e
  have lg := leave_given e (by rw [hn]; exact f)
  exact ⟨fun x hx => h.given x (lg x hx), by rw [leave_names e, hn], h.loc.leave, lg⟩

theorem Inv.congr {o : Owns} {k kb : Checker} (h : kb.st = k.st) (hi : Inv o k) : Inv o kb := by
  intro x hx; have := hi x hx; rw [gone_eq] at this ⊢; rw [h]; exact this

theorem declares_branches {s : OStmt} {p : OExpr × List (List OStmt)} (h : branches s = some p) : declares s = [] := by
  cases s <;> first | rfl | (rw [branches.eq_def] at h; cases h)

theorem declares_loopOf {s : OStmt} {p : Option Sym × List Event × List Event × List OStmt} (h : loopOf s = some p) :
    declares s = [] := by
  cases s <;> first | rfl | (rw [loopOf.eq_def] at h; cases h)

theorem map_nil_append (loc : Option (List Sym)) : loc.map (([] : List Sym) ++ ·) = loc := by
  cases loc <;> rfl

/-- The rest of a block after a statement that binds nothing. -/
theorem After.rest {G outer cur : List Sym} {loc : Option (List Sym)} {o o1 o' : Owns} (hl : Local loc o o1)
    (h : After G outer cur loc o1 o') : After G outer cur loc o o' :=
  ⟨h.given, h.names, Local.trans (xs := []) hl (by rw [map_nil_append]; exact h.loc)⟩

theorem run_good {c : Code} {o : Owns} {out : Outcome} (h : Run c o out) : Good c o out := by
  induction h with
  | done o =>
    intro G outer cur loc k k' hk hf hi hg hn
    rw [Checker.block] at hk; injection hk with hk; subst hk
    refine ⟨(by intro h; cases h), ?_, ?_⟩
    · intro o' h; injection h with h; subst h; exact hi
    · intro o' h
      rcases h with h | h
      · injection h with h; subst h
        exact ⟨hg, ⟨[], hn, (by intro x hx; cases hx)⟩, Local.refl loc o⟩
      · cases h
  | @step s r o o1 evs xs out he ho _ ih =>
    intro G outer cur loc k k' hk hf hi hg hn
    obtain ⟨k1, hk1, hk2⟩ := block_cons hk
    rw [FitsBlock] at hf
    obtain ⟨o1', h1, hxs, hout, hi1, hg1, hn1, hl1⟩ := effect_check he hk1 hf.1 hi hg
    rw [ho] at h1; injection h1 with h1; subst h1
    subst hxs
    obtain ⟨a1, a2, a3⟩ := ih G outer _ _ k1 k' hk2 hf.2 hi1
      (fun x hx => hg1 x (isGiven_bind x _ _ hx).1) (by rw [names_bind, hn1, hn, List.append_assoc])
    refine ⟨a1, a2, ?_⟩
    intro o' ho'
    have a := a3 o' ho'
    obtain ⟨new, e, f⟩ := a.names
    refine ⟨a.given, ⟨new ++ declares s, by rw [e]; simp only [List.append_assoc], ?_⟩, Local.trans hl1 a.loc⟩
    intro x hx
    rcases List.mem_append.mp hx with hx | hx
    · exact f x hx
    · exact hout x hx
  | @stepBad s r o evs xs he ho =>
    intro G outer cur loc k k' hk hf hi hg hn
    obtain ⟨k1, hk1, hk2⟩ := block_cons hk
    rw [FitsBlock] at hf
    obtain ⟨o1', h1, _⟩ := effect_check he hk1 hf.1 hi hg
    rw [ho] at h1; cases h1
  | @branch s r b bs c o o1 o2 out hb ho hm _ _ ih1 ih2 =>
    intro G outer cur loc k k' hk hf hi hg hn
    obtain ⟨k1, hk1, hk2⟩ := block_cons hk
    rw [FitsBlock, declares_branches hb, map_nil_append] at hf
    obtain ⟨hq, hfb, kb, kb', e1, e2, e3⟩ := branch_check hb hk1 hf.1 hm
    rw [quiet_happen hq hg] at ho; injection ho with ho; subst ho
    obtain ⟨_, b2, b3⟩ := ih1 G (cur ++ outer) [] loc kb kb' e2 hfb (hi.congr e1) hg hn
    obtain ⟨n1, n2, n3, n4⟩ := (b3 o2 (.inl rfl)).nested hn
    obtain ⟨a1, a2, a3⟩ := ih2 G outer cur loc k1 k' hk2 hf.2
      (fun x hx => e3 x (by rw [← n2]; exact isGiven_mem x _ hx) (b2 o2 rfl x (n4 x hx))) n1 n2
    exact ⟨a1, a2, fun o' ho' => (a3 o' ho').rest n3⟩
  | @branchBrk s r b bs c o o1 o2 hb ho hm _ ih1 =>
    intro G outer cur loc k k' hk hf hi hg hn
    obtain ⟨k1, hk1, hk2⟩ := block_cons hk
    rw [FitsBlock, declares_branches hb, map_nil_append] at hf
    obtain ⟨hq, hfb, kb, kb', e1, e2, e3⟩ := branch_check hb hk1 hf.1 hm
    rw [quiet_happen hq hg] at ho; injection ho with ho; subst ho
    obtain ⟨_, b2, b3⟩ := ih1 G (cur ++ outer) [] loc kb kb' e2 hfb (hi.congr e1) hg hn
    obtain ⟨n1, n2, n3, n4⟩ := (b3 o2 (.inr rfl)).nested hn
    refine ⟨(by intro h; cases h), (by intro o' h; cases h), ?_⟩
    intro o' ho'
    rcases ho' with ho' | ho'
    · cases ho'
    · injection ho' with ho'; subst ho'
      exact ⟨n1, ⟨[], n2, (by intro x hx; cases hx)⟩, n3⟩
  | @branchRet s r b bs c o o1 hb ho hm _ ih1 =>
    intro G outer cur loc k k' hk hf hi hg hn
    exact ⟨(by intro h; cases h), (by intro o' h; cases h), (by intro o' h; rcases h with h | h <;> cases h)⟩
  | @branchBad s r b bs c o o1 hb ho hm _ ih1 =>
    intro G outer cur loc k k' hk hf hi hg hn
    obtain ⟨k1, hk1, hk2⟩ := block_cons hk
    rw [FitsBlock, declares_branches hb, map_nil_append] at hf
    obtain ⟨hq, hfb, kb, kb', e1, e2, e3⟩ := branch_check hb hk1 hf.1 hm
    rw [quiet_happen hq hg] at ho; injection ho with ho; subst ho
    exact absurd rfl (ih1 G (cur ++ outer) [] loc kb kb' e2 hfb (hi.congr e1) hg hn).1
  | @condBad s r bs c o hb ho =>
    intro G outer cur loc k k' hk hf hi hg hn
    obtain ⟨k1, hk1, hk2⟩ := block_cons hk
    rw [FitsBlock] at hf
    have hq : Quiet G (events c) := by
      cases bs with
      | nil => cases s <;> rw [branches.eq_def] at hb <;> simp only at hb <;> cases hb
      | cons b bs => exact (branch_check hb hk1 hf.1 (List.mem_cons_self ..)).1
    rw [quiet_happen hq hg] at ho; cases ho
  | @loop s r body x pre cond o o1 o2 out hl ho _ _ ih1 ih2 =>
    intro G outer cur loc k k' hk hf hi hg hn
    obtain ⟨k1, hk1, hk2⟩ := block_cons hk
    rw [FitsBlock, declares_loopOf hl, map_nil_append] at hf
    obtain ⟨q1, q2, hx, hfb, ⟨kb, hkb⟩, mono⟩ := loop_check hl hk1 hf.1
    rw [quiet_happen q1 hg] at ho; injection ho with ho; subst ho
    have e := (ih1 G (cur ++ outer) k kb hkb hfb q2 hx hi hg hn).2 o2 rfl
    subst e
    exact ih2 G outer cur loc k1 k' hk2 hf.2
      (fun x hx => mono x (by rw [← hn]; exact isGiven_mem x _ hx) (hi x hx)) hg hn
  | @loopRet s r body x pre cond o o1 hl ho _ ih1 =>
    intro G outer cur loc k k' hk hf hi hg hn
    exact ⟨(by intro h; cases h), (by intro o' h; cases h), (by intro o' h; rcases h with h | h <;> cases h)⟩
  | @loopBad s r body x pre cond o o1 hl ho _ ih1 =>
    intro G outer cur loc k k' hk hf hi hg hn
    obtain ⟨k1, hk1, hk2⟩ := block_cons hk
    rw [FitsBlock] at hf
    obtain ⟨q1, q2, hx, hfb, ⟨kb, hkb⟩, mono⟩ := loop_check hl hk1 hf.1
    rw [quiet_happen q1 hg] at ho; injection ho with ho; subst ho
    exact absurd rfl (ih1 G (cur ++ outer) k kb hkb hfb q2 hx hi hg hn).1
  | @preBad s r body x pre cond o hl ho =>
    intro G outer cur loc k k' hk hf hi hg hn
    obtain ⟨k1, hk1, hk2⟩ := block_cons hk
    rw [FitsBlock] at hf
    rw [quiet_happen (loop_check hl hk1 hf.1).1 hg] at ho; cases ho
  | @retOk e r o o1 ho =>
    intro G outer cur loc k k' hk hf hi hg hn
    exact ⟨(by intro h; cases h), (by intro o' h; cases h), (by intro o' h; rcases h with h | h <;> cases h)⟩
  | @retBad e r o ho =>
    intro G outer cur loc k k' hk hf hi hg hn
    obtain ⟨k1, hk1, hk2⟩ := block_cons hk
    rw [FitsBlock] at hf
    cases e with
    | none => cases ho
    | some e =>
      rw [Checker.stmt] at hk1
      split at hk1
      · rename_i hnm
        have := hf.1
        rw [Fits] at this
        rw [Option.elim_some, happen_quiet o _ (clean_uses hi hg e this hnm)] at ho
        cases ho
      · cases hk1
  | @brk r o =>
    intro G outer cur loc k k' hk hf hi hg hn
    refine ⟨(by intro h; cases h), (by intro o' h; cases h), ?_⟩
    intro o' ho'
    rcases ho' with ho' | ho'
    · cases ho'
    · injection ho' with ho'; subst ho'
      exact ⟨hg, ⟨[], hn, (by intro x hx; cases hx)⟩, Local.refl loc o⟩
  | @fn ps body r o out _ ih =>
    intro G outer cur loc k k' hk hf hi hg hn
    obtain ⟨k1, hk1, hk2⟩ := block_cons hk
    rw [FitsBlock] at hf
    have : k1 = k := by
      rw [Checker.stmt] at hk1
      split at hk1
      · cases hk1
      · injection hk1 with hk1; exact hk1.symm
    subst this
    have h2 := hf.2
    rw [show declares (.funDef ps body) = [] from rfl, map_nil_append] at h2
    exact ih G outer cur loc k1 k' hk2 h2 hi hg hn
  | @fnBad ps body r o _ ih =>
    intro G outer cur loc k k' hk hf hi hg hn
    obtain ⟨k1, hk1, hk2⟩ := block_cons hk
    rw [FitsBlock] at hf
    have hfb := hf.1
    rw [Fits] at hfb
    rw [Checker.stmt] at hk1
    split at hk1
    · cases hk1
    · rename_i kb hkb
      have hno : ∀ x, isGiven (ps.map fun p => (p.1, false)) x = true → False := by
        intro x hx
        have := (isGiven_bind x [] (ps.map Prod.fst) (by
          rw [List.append_nil, List.map_map]; exact hx)).1
        cases this
      refine absurd rfl (ih G [] (ps.map Prod.fst) none _ kb hkb hfb (fun x hx => (hno x hx).elim)
        (fun x hx => (hno x hx).elim) ?_).1
      unfold names
      rw [List.map_map, List.append_nil]; rfl
  | @iterEnd x cond body o o1 ho =>
    intro G outer k kb hkb hfb hq hx hi hg hn
    rw [quiet_happen hq hg] at ho; injection ho with ho; subst ho
    exact ⟨(by intro h; cases h), by intro o' h; injection h with h; exact h.symm⟩
  | @iterCond x cond body o ho =>
    intro G outer k kb hkb hfb hq hx hi hg hn
    rw [quiet_happen hq hg] at ho; cases ho
  | @iter x cond body o o1 o2 out ho _ _ ih1 ih2 =>
    intro G outer k kb hkb hfb hq hx hi hg hn
    rw [quiet_happen hq hg] at ho; injection ho with ho; subst ho
    obtain ⟨b1, b2, b3⟩ := ih1 G outer x.toList (some x.toList) k kb hkb hfb
      (fun y hy => hi y (isGiven_bind y _ _ hy).1) (fun y hy => hg y (isGiven_bind y _ _ hy).1)
      (by rw [names_bind, hn])
    obtain ⟨l', e, _⟩ := (b3 o2 (.inl rfl)).loc _ (x.toList.map (fun x => (x, false))) o rfl rfl (by
      intro y hy; have := names_bind [] x.toList; rw [List.append_nil] at this; rw [this]; simpa using hy)
    subst e
    rw [leave_append] at ih2
    exact ih2 G outer k kb hkb hfb hq hx hi hg hn
  | @iterBrk x cond body o o1 o2 ho _ ih1 =>
    intro G outer k kb hkb hfb hq hx hi hg hn
    rw [quiet_happen hq hg] at ho; injection ho with ho; subst ho
    obtain ⟨b1, b2, b3⟩ := ih1 G outer x.toList (some x.toList) k kb hkb hfb
      (fun y hy => hi y (isGiven_bind y _ _ hy).1) (fun y hy => hg y (isGiven_bind y _ _ hy).1)
      (by rw [names_bind, hn])
    obtain ⟨l', e, _⟩ := (b3 o2 (.inr rfl)).loc _ (x.toList.map (fun x => (x, false))) o rfl rfl (by
      intro y hy; have := names_bind [] x.toList; rw [List.append_nil] at this; rw [this]; simpa using hy)
    subst e
    rw [leave_append]
    exact ⟨(by intro h; cases h), by intro o' h; injection h with h; exact h.symm⟩
  | @iterRet x cond body o o1 ho _ ih1 =>
    intro G outer k kb hkb hfb hq hx hi hg hn
    exact ⟨(by intro h; cases h), (by intro o' h; cases h)⟩
  | @iterBad x cond body o o1 ho _ ih1 =>
    intro G outer k kb hkb hfb hq hx hi hg hn
    rw [quiet_happen hq hg] at ho; injection ho with ho; subst ho
    exact absurd rfl (ih1 G outer x.toList (some x.toList) k kb hkb hfb
      (fun y hy => hi y (isGiven_bind y _ _ hy).1) (fun y hy => hg y (isGiven_bind y _ _ hy).1)
      (by rw [names_bind, hn])).1

end Verif.Lang.Own
