import Verif.Lang.IntervalSound

/-! # Programs on which the interval pass does what the repaired pass does

A name is *stale* when the pass may believe something wrong or unprotected of it: the variable of a
`While` condition after the loop, a name declared in a block that has ended, a name that a function
assigns, or one given a value computed from a stale name or from the length of a variable.  A
program is *careful* when no condition that could be decided looks at a stale name, calls anything
or can fail otherwise than on operand types. -/
namespace Verif.Lang

/-- The interval of the expression does not depend on stale names and lengths of variables, and what
is subtracted in it are 64-bit literals other than the smallest integer. -/
def okE (st : List Sym) : Expr → Bool
  | .var x => !st.contains x
  | .bin op a b => okE st a && okE st b && (op != .sub || match b with
    | .lit (.num k) => narrow k && k != -(2 ^ 63)
    | _ => false)
  | .length (.var _) => false
  | .not a => okE st a
  | _ => true

/-- An expression of which the pass knows nothing. -/
def vagueE : Expr → Bool
  | .lit (.num _) | .var _ | .bin _ _ _ | .length _ => false
  | _ => true

/-- An integer literal. -/
def isNumLit : Expr → Bool
  | .lit (.num _) => true
  | _ => false

/-- A condition which is never decided. -/
def vagueC : Expr → Bool
  | .bin op a b => match op with
    | .lt | .gt | .le | .ge | .eq | .ne =>
      vagueE a && (vagueE b || isNumLit b) || vagueE b && isNumLit a
    | _ => true
  | .not c => vagueC c
  | .lit (.bool _) => false
  | _ => true

/-- The condition may be looked at. -/
def condOk (st : List Sym) (c : Expr) : Bool := vagueC c || quietE c && okE st c

/-- The stale names after a condition. -/
def narrowStale (G own st : List Sym) : Expr → List Sym
  | .bin op (.var x) r =>
    if isOrder op then
      if may G own x && okE st r then st else x :: st
    else st
  | _ => st

mutual
/-- The stale names after a statement, if it is careful. -/
def carefulS (G own : List Sym) : Stmt → List Sym → Option (List Sym)
  | .letS x _ _ e, st => some (if okE st e then st.filter (· != x) else x :: st)
  | .set x e, st => some (if may G own x && okE st e then st.filter (· != x) else x :: st)
  | .ifS c t e, st =>
    if condOk st c then
      match carefulSs G own t (narrowStale G own st c), carefulSs G own e (narrowStale G own st c) with
      | some s1, some s2 => some (s1 ++ topLets t ++ (s2 ++ topLets e) ++ st)
      | _, _ => none
    else none
  | .whileS c b, st =>
    match carefulSs G own b (narrowStale G own st c) with
    | some _ => some ((boundedVar c).toList ++ st)
    | none => none
  | .repeatS x _ b, st =>
    match carefulSs G (x :: own) b st with
    | some _ => some st
    | none => none
  | .funDef _ _ b, st =>
    match carefulSs G [] b [] with
    | some _ => some st
    | none => none
  | _, st => some st

/-- The stale names after statements, if they are careful. -/
def carefulSs (G own : List Sym) : List Stmt → List Sym → Option (List Sym)
  | [], st => some st
  | s :: ss, st =>
    match carefulS G own s st with
    | some st' => carefulSs G (declS s ++ own) ss st'
    | none => none
end

/-- The program is careful. -/
def careful (p : List Stmt) : Bool := (carefulSs (funSetsSs p) [] p []).isSome

/-! ## Agreement -/

/-- The two passes believe the same of names that are not stale. -/
def Agree (st : List Sym) (A : AState) (V : IMap) : Prop := ∀ x, x ∉ st → A.vars.range x = V.range x

section
variable {st : List Sym} {A : AState} {V : IMap} {G own : List Sym}

theorem sub_agree {i : Interval} {k : Int} (hk : narrow k = true) (hk' : k ≠ -(2 ^ 63)) :
    i.sub .sub (.exact k) = i.sub subRight (.exact k) := by
  have h : ∀ b : Bound, Bound.sub b (.fin k) = subRight b (.fin k) := by
    intro b
    cases b with
    | negInf => rfl
    | posInf => rfl
    | fin a =>
      simp only [narrow, decide_eq_true_eq] at hk
      simp only [Bound.sub, subRight, Bound.wrap]
      by_cases hn : narrow (a - k) = true
      · simp only [hn, if_true]
      · simp only [hn, if_false]
        simp only [narrow, decide_eq_true_eq] at hn
        by_cases ha : a > 0
        · have : a - k > 0 := by omega
          simp only [ha, this, if_true, if_false]
        · have : ¬ a - k > 0 := by omega
          simp only [ha, this, if_true, if_false]
  simp only [Interval.sub, Interval.exact, h]

theorem range_agree (h : Agree st A V) : ∀ e : Expr, okE st e = true →
    rangeE .sub A e = rangeE subRight V.st e
  | .var x, he => h x (by simpa [okE] using he)
  | .bin op a b, he => by
    simp only [okE, Bool.and_eq_true] at he
    obtain ⟨⟨ha, hb⟩, hs⟩ := he
    simp only [rangeE]
    rw [range_agree h a ha, range_agree h b hb]
    by_cases hop : op = .sub
    · subst hop
      simp only [bne_self_eq_false, Bool.false_or] at hs
      split at hs
      · simp only [Bool.and_eq_true, bne_iff_ne] at hs
        simp only [opRange, rangeE]
        exact sub_agree hs.1 hs.2
      · cases hs
    · cases op <;> first | rfl | exact absurd rfl hop
  | .length e, he => by cases e <;> first | rfl | simp [okE] at he
  | .lit l, _ => by cases l <;> rfl
  | .not _, _ => rfl
  | .call _ _, _ => rfl
  | .callv _ _, _ => rfl
  | .list _, _ => rfl
  | .index _ _, _ => rfl
  | .closure _ _, _ => rfl

theorem decide_agree (h : Agree st A V) : ∀ c : Expr, okE st c = true → quietE c = true →
    decideE .sub A c = decideE subRight V.st c
  | .bin op a b, he, _ => by
    simp only [okE, Bool.and_eq_true] at he
    simp only [decideE, range_agree h a he.1.1, range_agree h b he.1.2]
  | .not c, he, hq => by simp only [decideE, decide_agree h c he hq]
  | .var _, _, _ => rfl
  | .length _, _, _ => rfl
  | .lit l, _, _ => by cases l <;> rfl
  | .call _ _, _, _ => rfl
  | .callv _ _, _, _ => rfl
  | .list _, _, _ => rfl
  | .index _ _, _, _ => rfl
  | .closure _ _, _, _ => rfl

theorem vague_range {sb : Bound → Bound → Bound} {e : Expr} (h : vagueE e = true) :
    rangeE sb A e = .top := by
  cases e with
  | lit l => cases l <;> first | rfl | simp [vagueE] at h
  | _ => first | rfl | simp [vagueE] at h

theorem vague_decide (sb : Bound → Bound → Bound) (A : AState) : ∀ c : Expr, vagueC c = true →
    decideE sb A c = none
  | .bin op a b, hv => by
    have key : ∀ i j : Interval, (i = .top ∨ ∃ n, i = .exact n) → (j = .top ∨ ∃ n, j = .exact n) →
        (i = .top ∨ j = .top) → decideOp op i j = none := by
      intro i j hi hj hij
      rcases hij with rfl | rfl
      · rcases hj with rfl | ⟨n, rfl⟩
        · exact (decide_top (vin_top .nothing)).1
        · exact (decide_top (v := .int n) (exact_has n)).1
      · rcases hi with rfl | ⟨n, rfl⟩
        · exact (decide_top (vin_top .nothing)).1
        · exact (decide_top (v := .int n) (exact_has n)).2
    have num : ∀ e : Expr, isNumLit e = true → ∃ n, rangeE sb A e = .exact n := by
      intro e he
      cases e with
      | lit l => cases l <;> first | exact ⟨_, rfl⟩ | simp [isNumLit] at he
      | _ => simp [isNumLit] at he
    have main : (vagueE a && (vagueE b || isNumLit b) || vagueE b && isNumLit a) = true →
        decideOp op (rangeE sb A a) (rangeE sb A b) = none := by
      intro hm
      simp only [Bool.or_eq_true, Bool.and_eq_true] at hm
      rcases hm with ⟨ha, hb | hb⟩ | ⟨hb, ha⟩
      · exact key _ _ (.inl (vague_range ha)) (.inl (vague_range hb)) (.inl (vague_range ha))
      · exact key _ _ (.inl (vague_range ha)) (.inr (num b hb)) (.inl (vague_range ha))
      · exact key _ _ (.inr (num a ha)) (.inl (vague_range hb)) (.inr (vague_range hb))
    simp only [decideE]
    cases op <;> first | exact main hv | rfl
  | .not c, hv => by simp only [decideE, vague_decide sb A c hv, Option.map_none]
  | .var _, _ => rfl
  | .length _, _ => rfl
  | .lit l, hv => by cases l <;> first | rfl | simp [vagueC] at hv
  | .call _ _, _ => rfl
  | .callv _ _, _ => rfl
  | .list _, _ => rfl
  | .index _ _, _ => rfl
  | .closure _ _, _ => rfl

theorem vague_decide_rp (V : IMap) : ∀ c : Expr, vagueC c = true → rpDecide c V = none := by
  intro c hc
  unfold rpDecide
  split
  · exact vague_decide _ _ c hc
  · rfl

theorem cond_agree (h : Agree st A V) {c : Expr} (hc : condOk st c = true) :
    decideE .sub A c = rpDecide c V := by
  simp only [condOk, Bool.or_eq_true, Bool.and_eq_true] at hc
  rcases hc with hv | ⟨hq, ho⟩
  · rw [vague_decide .sub A c hv, vague_decide_rp V c hv]
  · simp only [rpDecide, hq, if_true]
    exact decide_agree h c ho hq

/-! ## States -/

theorem setVar_range (A : AState) (x y : Sym) (i : Interval) :
    (A.setVar x i).vars.range y = if y = x then i else A.vars.range y := by
  simp only [AState.setVar, IMap.range, IMap.put]
  split <;> rfl

theorem put_range' (V : IMap) (x y : Sym) (i : Option Interval) :
    (V.put x i).range y = if y = x then i.getD .top else V.range y := by
  unfold IMap.range IMap.put
  split <;> rfl

theorem widen_range : ∀ (xs : List Sym) (A : AState) (x : Sym),
    (A.widen xs).vars.range x = if x ∈ xs then .top else A.vars.range x
  | [], A, x => by simp [AState.widen]
  | y :: xs, A, x => by
    have := widen_range xs (A.setVar y .top) x
    simp only [AState.widen, List.foldl_cons] at this ⊢
    rw [this, setVar_range]
    by_cases h1 : x ∈ xs <;> by_cases h2 : x = y <;> simp [h1, h2]

theorem forget_range' (V : IMap) (xs : List Sym) (x : Sym) :
    (V.forget xs).range x = if x ∈ xs then .top else V.range x := by
  simp only [IMap.range, IMap.forget, List.contains_eq_mem, decide_eq_true_eq]
  split <;> rfl

theorem Agree.mono {st' : List Sym} (h : Agree st A V) (hs : ∀ x ∈ st, x ∈ st') : Agree st' A V :=
  fun x hx => h x fun hx' => hx (hs x hx')

theorem Agree.assign (h : Agree st A V) (x : Sym) {i : Interval} {o : Option Interval}
    (hi : o.getD .top = i) : Agree (st.filter (· != x)) (A.setVar x i) (V.put x o) := by
  intro y hy
  rw [setVar_range, put_range']
  split
  · exact hi.symm
  · rename_i hne
    exact h y fun h' => hy (List.mem_filter.2 ⟨h', by simp [hne]⟩)

theorem Agree.stale (h : Agree st A V) (x : Sym) (i : Interval) (o : Option Interval) :
    Agree (x :: st) (A.setVar x i) (V.put x o) := by
  intro y hy
  simp only [List.mem_cons, not_or] at hy
  rw [setVar_range, put_range']
  simp only [hy.1, if_false]
  exact h y hy.2

theorem Agree.widen (h : Agree st A V) (xs : List Sym) : Agree st (A.widen xs) (V.forget xs) := by
  intro x hx
  rw [widen_range, forget_range', h x hx]

theorem narrowWith_range (f : BinOp → Int → Interval → Interval) (sb : Bound → Bound → Bound)
    (op : BinOp) (x y : Sym) (r : Expr) (A : AState) :
    (narrowWith f sb (.bin op (.var x) r) A).vars.range y =
      if isOrder op = true ∧ y = x then
        match (rangeE sb A r).isExact with
        | some n => f op n (A.vars.range x)
        | none => A.vars.range x
      else A.vars.range y := by
  simp only [narrowWith]
  by_cases ho : isOrder op = true
  · simp only [ho, if_true, true_and]
    cases (rangeE sb A r).isExact with
    | none => simp only; split <;> simp_all
    | some n => simp only [setVar_range]
  · simp [ho]

theorem boundedVar_bin (op : BinOp) (x : Sym) (r : Expr) :
    boundedVar (.bin op (.var x) r) = if isOrder op then some x else none := rfl

theorem narrow_agree (h : Agree st A V) (f : BinOp → Int → Interval → Interval) (c : Expr) :
    Agree (narrowStale G own st c) (narrowWith f .sub c A) (rpNarrow f G own c V) := by
  by_cases hb : ∃ op x r, c = .bin op (.var x) r
  · obtain ⟨op, x, r, rfl⟩ := hb
    simp only [narrowStale, rpNarrow, boundedVar_bin]
    cases ho : isOrder op with
    | false =>
      simp only [Bool.false_eq_true, if_false]
      intro y hy
      rw [narrowWith_range]
      simp only [ho, Bool.false_eq_true, false_and, if_false]
      exact h y hy
    | true =>
      simp only [if_true]
      by_cases hm : (may G own x && okE st r) = true
      · simp only [hm, if_true]
        simp only [Bool.and_eq_true] at hm
        simp only [hm.1, if_true]
        intro y hy
        rw [narrowWith_range]
        show _ = (narrowWith f subRight (.bin op (.var x) r) V.st).vars.range y
        rw [narrowWith_range, range_agree h r hm.2]
        by_cases hyx : y = x
        · subst hyx
          simp only [ho, and_self, if_true]
          rw [h y hy]
          rfl
        · simp only [hyx, and_false, if_false]
          exact h y hy
      · rw [if_neg hm]
        intro y hy
        simp only [List.mem_cons, not_or] at hy
        rw [narrowWith_range]
        simp only [hy.1, and_false, if_false]
        split
        · show _ = (narrowWith f subRight (.bin op (.var x) r) V.st).vars.range y
          rw [narrowWith_range]
          simp only [hy.1, and_false, if_false]
          exact h y hy.2
        · exact h y hy.2
  · have h1 : boundedVar c = none := by
      unfold boundedVar
      split
      · exact absurd ⟨_, _, _, rfl⟩ hb
      · rfl
    have h2 : narrowStale G own st c = st := by
      unfold narrowStale
      split
      · exact absurd ⟨_, _, _, rfl⟩ hb
      · rfl
    have h3 : narrowWith f .sub c A = A := by
      unfold narrowWith
      split
      · exact absurd ⟨_, _, _, rfl⟩ hb
      · rfl
    simp only [rpNarrow, h1, h2, h3]
    exact h

/-! ## Joins -/

theorem join_top_right (i : Interval) : i.join .top = .top := by
  unfold Interval.join
  split
  · rfl
  · split
    · rename_i hb; simp [Interval.isBottom, Interval.top, Bound.cmp] at hb
    · simp [Interval.top, min_negInf, max_posInf]

theorem join_top_left (i : Interval) : Interval.join .top i = .top := by
  unfold Interval.join
  split
  · rename_i hb; simp [Interval.isBottom, Interval.top, Bound.cmp] at hb
  · split
    · rfl
    · simp [Interval.top, min_negInf, max_posInf]

theorem either_range' (a b : IMap) (x : Sym) :
    (a.either b).range x = (a.range x).join (b.range x) := by
  unfold IMap.either IMap.range
  cases ha : a x <;> cases hb : b x <;> simp only [ha, hb] <;>
    simp [join_top_left, join_top_right]

theorem joinStates_range {out a b : AState} {x : Sym} (h : a.vars x = none → out.vars x = none) :
    (joinStates out a b).vars.range x = (a.vars.range x).join (b.vars.range x) := by
  simp only [joinStates, IMap.join, IMap.range]
  cases ha : a.vars x with
  | none =>
    cases hb : b.vars x with
    | none => simp [h ha, join_top_left]
    | some j => simp
  | some i => cases hb : b.vars x <;> simp

theorem narrowWith_dom {f : BinOp → Int → Interval → Interval} {sb : Bound → Bound → Bound}
    {c : Expr} {A : AState} {x : Sym} (h : (narrowWith f sb c A).vars x = none) :
    A.vars x = none := by
  unfold narrowWith at h
  split at h
  · split at h
    · split at h
      · simp only [AState.setVar, IMap.put] at h
        split at h
        · cases h
        · exact h
      · exact h
    · exact h
  · exact h

theorem setVar_dom {A : AState} {x y : Sym} {i : Interval} (h : (A.setVar y i).vars x = none) :
    A.vars x = none := by
  simp only [AState.setVar, IMap.put] at h
  split at h
  · cases h
  · exact h

theorem widen_dom {x : Sym} : ∀ (xs : List Sym) (A : AState), (A.widen xs).vars x = none →
    A.vars x = none
  | [], A, h => h
  | y :: xs, A, h => setVar_dom (widen_dom xs (A.setVar y .top) h)

mutual
theorem ivS_dom (nw : Sym) (x : Sym) : ∀ (s : Stmt) (A : AState), (ivS nw s A).2.vars x = none →
    A.vars x = none
  | .letS y b m e, A, h => by
    simp only [ivS, letState] at h
    split at h
    · exact setVar_dom (i := rangeE .sub A e) (y := y) h
    · exact setVar_dom h
  | .set y e, A, h => setVar_dom (by simpa only [ivS] using h)
  | .push y e, A, h => h
  | .ifS c t e, A, h => by
    simp only [ivS] at h
    split at h
    · exact narrowWith_dom (ivSs_dom nw x t _ h)
    · split at h
      · exact h
      · exact narrowWith_dom (ivSs_dom nw x e _ h)
    · have key : ∀ a b : AState, (joinStates A a b).vars x = none → A.vars x = none := by
        intro a b hj
        simp only [joinStates, IMap.join] at hj
        split at hj
        · exact hj
        · cases hj
      split at h
      · exact key _ _ h
      · exact key _ _ h
  | .whileS c b, A, h => by
    simp only [ivS] at h
    exact narrowWith_dom (widen_dom _ _ h)
  | .repeatS y e b, A, h => by
    simp only [ivS] at h
    exact widen_dom _ _ h
  | .funDef f ps b, A, h => h
  | .callS _ _, A, h => h
  | .ret none, A, h => h
  | .ret (some _), A, h => h
  | .brk, A, h => h
  | .showS _, A, h => h
  | .assertS _, A, h => h

theorem ivSs_dom (nw : Sym) (x : Sym) : ∀ (ss : List Stmt) (A : AState),
    (ivSs nw ss A).2.vars x = none → A.vars x = none
  | [], A, h => h
  | s :: ss, A, h => by
    simp only [ivSs] at h
    exact ivS_dom nw x s A (ivSs_dom nw x ss _ h)
end

theorem Agree.forget (h : Agree st A V) (xs : List Sym) : Agree (st ++ xs) A (V.forget xs) := by
  intro x hx
  simp only [List.mem_append, not_or] at hx
  rw [forget_range']
  simp only [hx.2, if_false]
  exact h x hx.1

theorem Agree.join {st' : List Sym} {out a b : AState} {W W' : IMap} (h1 : Agree st a W)
    (h2 : Agree st b W') (hs : ∀ x ∈ st, x ∈ st') (hd : ∀ x, a.vars x = none → out.vars x = none) :
    Agree st' (joinStates out a b) (W.either W') := by
  intro x hx
  have hx' : x ∉ st := fun h => hx (hs x h)
  rw [joinStates_range (hd x), either_range', h1 x hx', h2 x hx']

/-! ## The two passes -/

mutual
theorem careful_S (nw : Sym) (G : List Sym) : ∀ (s : Stmt) (own st st' : List Sym) (A : AState)
    (V : IMap), carefulS G own s st = some st' → Agree st A V →
    (ivS nw s A).1 = (rpS G own s V).1 ∧ Agree st' (ivS nw s A).2 (rpS G own s V).2
  | .letS x b m e, own, st, st', A, V, hc, h => by
    simp only [carefulS, Option.some.injEq] at hc
    have hl : (letState .sub nw x e A).vars = (A.setVar x (rangeE .sub A e)).vars := by
      unfold letState; split <;> rfl
    refine ⟨rfl, ?_⟩
    subst hc
    simp only [ivS, rpS, Agree, hl]
    split
    · rename_i ho
      exact h.assign x (by rw [range_agree h e ho]; rfl)
    · exact h.stale x _ _
  | .set x e, own, st, st', A, V, hc, h => by
    simp only [carefulS, Option.some.injEq] at hc
    refine ⟨rfl, ?_⟩
    subst hc
    simp only [ivS, rpS]
    split
    · rename_i ho
      simp only [Bool.and_eq_true] at ho
      exact h.assign x (by rw [range_agree h e ho.2, if_pos ho.1]; rfl)
    · exact h.stale x _ _
  | .ifS c t e, own, st, st', A, V, hc, h => by
    simp only [carefulS] at hc
    split at hc
    case isFalse => cases hc
    rename_i hco
    split at hc
    case h_2 => cases hc
    rename_i s1 s2 h1 h2
    simp only [Option.some.injEq] at hc
    subst hc
    obtain ⟨t1, t2⟩ := careful_S_s nw G t own _ s1 _ _ h1 (narrow_agree (G := G) (own := own) h narrowBy c)
    obtain ⟨e1, e2⟩ := careful_S_s nw G e own _ s2 _ _ h2 (narrow_agree (G := G) (own := own) h narrowNot c)
    simp only [ivS, rpS]
    rw [cond_agree h hco]
    cases rpDecide c V with
    | none =>
      cases he : e.isEmpty with
      | true =>
        simp only [if_true, t1, true_and]
        exact Agree.join (st := s1 ++ topLets t ++ st)
          ((t2.forget (topLets t)).mono (by simp; tauto)) (h.mono (by simp; tauto))
          (by simp; tauto) (fun x hx => narrowWith_dom (ivSs_dom nw x t _ hx))
      | false =>
        simp only [Bool.false_eq_true, if_false, t1, e1, true_and]
        exact Agree.join (st := s1 ++ topLets t ++ (s2 ++ topLets e))
          ((t2.forget (topLets t)).mono (by simp; tauto))
          ((e2.forget (topLets e)).mono (by simp; tauto))
          (by simp; tauto) (fun x hx => narrowWith_dom (ivSs_dom nw x t _ hx))
    | some d =>
      cases d with
      | true =>
        simp only [t1, true_and]
        exact (t2.forget (topLets t)).mono (by simp; tauto)
      | false =>
        cases he : e.isEmpty with
        | true =>
          simp only [if_true, true_and]
          exact h.mono (by simp; tauto)
        | false =>
          simp only [Bool.false_eq_true, if_false, e1, true_and]
          exact (e2.forget (topLets e)).mono (by simp; tauto)
  | .whileS c b, own, st, st', A, V, hc, h => by
    simp only [carefulS] at hc
    split at hc
    case h_2 => cases hc
    rename_i s1 h1
    simp only [Option.some.injEq] at hc
    subst hc
    obtain ⟨b1, _⟩ := careful_S_s nw G b own _ s1 _ _ h1
      (narrow_agree (G := G) (own := own) (h.widen (setsSs b)) narrowBy c)
    simp only [ivS, rpS]
    refine ⟨by rw [b1], ?_⟩
    have hn : ∀ (f : BinOp → Int → Interval → Interval) (sb : Bound → Bound → Bound) (A : AState)
        (x : Sym), x ∉ (boundedVar c).toList → (narrowWith f sb c A).vars.range x = A.vars.range x := by
      intro f sb A x hx
      unfold narrowWith
      split
      · rename_i op y r
        split
        · rename_i ho
          simp only [boundedVar, ho, if_true, Option.toList_some, List.mem_singleton] at hx
          split
          · rw [setVar_range]; simp [hx]
          · rfl
        · rfl
      · rfl
    intro x hx
    simp only [List.mem_append, not_or] at hx
    have hl : ((narrowWith narrowNot .sub c A).widen
        ((setsSs b).filter fun w => some w != boundedVar c)).vars.range x =
        if x ∈ setsSs b then .top else A.vars.range x := by
      rw [widen_range, hn _ _ _ _ hx.1]
      have : some x ≠ boundedVar c := by
        intro hh; rw [← hh] at hx; simp at hx
      by_cases hxs : x ∈ setsSs b <;> simp [hxs, this]
    have hr : (if breaksSs b = true then V.forget (setsSs b)
        else rpNarrow narrowNot G own c (V.forget (setsSs b))).range x =
        if x ∈ setsSs b then .top else V.range x := by
      rw [← forget_range']
      split
      · rfl
      · unfold rpNarrow
        split
        · split
          · exact hn narrowNot subRight (V.forget (setsSs b)).st x hx.1
          · rfl
        · rfl
    rw [hl, hr, h x hx.2]
  | .repeatS x e b, own, st, st', A, V, hc, h => by
    simp only [carefulS] at hc
    split at hc
    case h_2 => cases hc
    rename_i s1 h1
    simp only [Option.some.injEq] at hc
    subst hc
    have ha : Agree st ((A.setVar x .top).widen (setsSs b)) (V.forget (x :: setsSs b)) := by
      intro y hy
      rw [widen_range, forget_range', setVar_range, h y hy]
      by_cases h1 : y ∈ setsSs b <;> by_cases h2 : y = x <;> simp [h1, h2]
    obtain ⟨b1, _⟩ := careful_S_s nw G b (x :: own) _ s1 _ _ h1 ha
    simp only [ivS, rpS]
    exact ⟨by rw [b1], h.widen _⟩
  | .funDef f ps b, own, st, st', A, V, hc, h => by
    simp only [carefulS] at hc
    split at hc
    case h_2 => cases hc
    rename_i s1 h1
    simp only [Option.some.injEq] at hc
    subst hc
    obtain ⟨b1, _⟩ := careful_S_s nw G b [] [] s1 {} (fun _ => none) h1 (fun x _ => rfl)
    simp only [ivS, rpS]
    exact ⟨by rw [b1], h⟩
  | .push x e, own, st, st', A, V, hc, h => by
    simp only [carefulS, Option.some.injEq] at hc
    subst hc
    exact ⟨rfl, h⟩
  | .callS _ _, own, st, st', A, V, hc, h => by
    simp only [carefulS, Option.some.injEq] at hc
    subst hc
    exact ⟨rfl, h⟩
  | .ret none, own, st, st', A, V, hc, h => by
    simp only [carefulS, Option.some.injEq] at hc
    subst hc
    exact ⟨rfl, h⟩
  | .ret (some _), own, st, st', A, V, hc, h => by
    simp only [carefulS, Option.some.injEq] at hc
    subst hc
    exact ⟨rfl, h⟩
  | .brk, own, st, st', A, V, hc, h => by
    simp only [carefulS, Option.some.injEq] at hc
    subst hc
    exact ⟨rfl, h⟩
  | .showS _, own, st, st', A, V, hc, h => by
    simp only [carefulS, Option.some.injEq] at hc
    subst hc
    exact ⟨rfl, h⟩
  | .assertS _, own, st, st', A, V, hc, h => by
    simp only [carefulS, Option.some.injEq] at hc
    subst hc
    exact ⟨rfl, h⟩

theorem careful_S_s (nw : Sym) (G : List Sym) : ∀ (ss : List Stmt) (own st st' : List Sym)
    (A : AState) (V : IMap), carefulSs G own ss st = some st' → Agree st A V →
    (ivSs nw ss A).1 = (rpSs G own ss V).1 ∧ Agree st' (ivSs nw ss A).2 (rpSs G own ss V).2
  | [], own, st, st', A, V, hc, h => by
    simp only [carefulSs, Option.some.injEq] at hc
    subst hc
    exact ⟨rfl, h⟩
  | s :: ss, own, st, st', A, V, hc, h => by
    simp only [carefulSs] at hc
    split at hc
    case h_2 => cases hc
    rename_i s1 h1
    obtain ⟨a1, a2⟩ := careful_S nw G s own st s1 A V h1 h
    obtain ⟨b1, b2⟩ := careful_S_s nw G ss _ s1 st' _ _ hc a2
    simp only [ivSs, rpSs]
    exact ⟨by rw [a1, b1], b2⟩
end

/-- On careful programs the pass does what the repaired pass does. -/
theorem careful_same (nw : Sym) {p : List Stmt} (h : careful p = true) :
    intervalProgram nw p = repairedProgram p := by
  obtain ⟨st, hst⟩ := Option.isSome_iff_exists.1 h
  exact (careful_S_s nw (funSetsSs p) p [] [] st {} (fun _ => none) hst (fun x _ => rfl)).1

end

end Verif.Lang
