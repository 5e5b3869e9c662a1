import Verif.Lang.IntervalSound
import Verif.Lang.PropSim
import Verif.Lang.RefinePlain

/-! # The repaired interval pass does not change what a program does -/
namespace Verif.Lang

/-! ## Blocks -/

section
variable {G : Sym → Prop} {I : Inst}

theorem undo_other : ∀ (f : List (Sym × Option Value)) (m : VMap) (x : Sym),
    (∀ q ∈ f, q.1 ≠ x) → undo m f x = m x
  | [], _, _, _ => rfl
  | (y, old) :: f, m, x, h => by
    simp only [undo]
    rw [undo_other f _ x fun q hq => h q (by simp [hq])]
    have : x ≠ y := fun e => h (y, old) (by simp) e.symm
    simp [VMap.put, this]

theorem define_saves {e : Env} {x : Sym} {v : Value} {f : List (Sym × Option Value)}
    {rest : List (List (Sym × Option Value))} (h : e.saves = f :: rest) :
    ∃ o, (e.define x v).saves = ((x, o) :: f) :: rest := by
  unfold Env.define
  by_cases hf : e.frames.isEmpty = true
  · exact ⟨e.mainBlock x, by simp [hf, h, recordSave]⟩
  · exact ⟨e.locals x, by simp [hf, h, recordSave]⟩

/-- What a block saves are the names it declares. -/
theorem execs_names (hc : CallsEff G I) (n : Nat) : ∀ (ss : List Stmt) (s : State) (fl : Flow)
    (s' : State) (f : List (Sym × Option Value)) (rest : List (List (Sym × Option Value))),
    s.env.saves = f :: rest → (∀ x ∈ funSetsSs ss, G x) → FunInv G s →
    execs I n ss s = (.ok fl, s') →
    ∃ f', s'.env.saves = (f' ++ f) :: rest ∧ ∀ q ∈ f', q.1 ∈ topLets ss
  | [], s, fl, s', f, rest, hs, _, _, h => by
    simp only [execs, Prod.mk.injEq] at h
    obtain ⟨_, rfl⟩ := h
    exact ⟨[], hs, by simp⟩
  | st :: ss, s, fl, s', f, rest, hs, hg, hi, h => by
    simp only [execs, bind_ok_iff] at h
    obtain ⟨f1, s1, h1, h2⟩ := h
    have hg1 : ∀ x ∈ funSetsS st, G x := fun x hx => hg x (by simp [funSetsSs, hx])
    have key : ∃ f', s1.env.saves = (f' ++ f) :: rest ∧ (∀ q ∈ f', q.1 ∈ declS st) ∧
        FunInv G s1 := by
      cases hlet : isLet st with
      | false =>
        have e1 := exec_eff (X := fun _ => True) hc n st s _ s1 hlet (fun _ _ => trivial) hg1 hi h1
        exact ⟨[], by rw [e1.saves, hs]; rfl, by simp, e1.funs⟩
      | true =>
        cases st <;> simp [isLet] at hlet
        rename_i x b m e
        simp only [exec, bind_ok_iff, doDefine, Prod.mk.injEq] at h1
        obtain ⟨v, s2, h3, _, rfl⟩ := h1
        have e2 := evalE_eff hc _ _ _ _ hi h3
        obtain ⟨o, ho⟩ := define_saves (x := x) (v := v) (e2.saves.trans hs)
        exact ⟨[(x, o)], ho, by simp [declS], e2.funs⟩
    obtain ⟨f', k1, k2, k3⟩ := key
    have stop : ∀ {a : Flow}, (Except.ok a, s1) = ((Except.ok fl : Except Err Flow), s') →
        ∃ f', s'.env.saves = (f' ++ f) :: rest ∧ ∀ q ∈ f', q.1 ∈ topLets (st :: ss) := by
      intro a h
      simp only [Prod.mk.injEq] at h
      obtain ⟨_, rfl⟩ := h
      exact ⟨f', k1, fun q hq => by simp [topLets, k2 q hq]⟩
    cases f1 with
    | brk => exact stop h2
    | ret v => exact stop h2
    | cont =>
      obtain ⟨g', g1, g2⟩ := execs_names hc n ss s1 fl s' (f' ++ f) rest k1
        (fun x hx => hg x (by simp [funSetsSs, hx])) k3 h2
      refine ⟨g' ++ f', by rw [g1, List.append_assoc], ?_⟩
      intro q hq
      simp only [topLets, List.mem_append] at hq ⊢
      rcases hq with hq | hq
      · exact .inr (g2 q hq)
      · exact .inl (k2 q hq)

/-- Leaving a block keeps every name it does not declare. -/
theorem pop_cur {e : Env} {f : List (Sym × Option Value)}
    {rest : List (List (Sym × Option Value))} (h : e.saves = f :: rest) (x : Sym)
    (hx : ∀ q ∈ f, q.1 ≠ x) :
    e.popScope.cur x = e.cur x ∧ e.popScope.globals = e.globals := by
  unfold Env.popScope
  rw [h]
  by_cases hf : e.frames.isEmpty = true
  · simp only [hf, if_true, Env.cur]
    exact ⟨undo_other f _ x hx, trivial⟩
  · have hf' : e.frames.isEmpty = false := by simpa using hf
    simp only [hf', Bool.false_eq_true, if_false, Env.cur]
    exact ⟨undo_other f _ x hx, trivial⟩

end

/-! ## `Break` -/

section
variable {I : Inst}

theorem whileLoop_noBrk {P : Prims} {fc : State → Res Value} {fb : State → Res Flow} :
    ∀ (n : Nat) (s s' : State), whileLoop P fc fb n s ≠ (.ok .brk, s')
  | 0, s, s' => by simp [whileLoop]
  | n + 1, s, s' => by
    intro h
    simp only [whileLoop, whileStep, bind_ok_iff] at h
    obtain ⟨v, s1, h1, h2⟩ := h
    split at h2
    · rw [bind_ok_iff] at h2
      obtain ⟨f1, s2, h3, h4⟩ := h2
      cases f1 with
      | cont => exact whileLoop_noBrk n _ _ h4
      | brk => simp [loopNext] at h4
      | ret w => simp [loopNext] at h4
    · simp at h2

theorem eachItem_noBrk {x : Sym} {fb : State → Res Flow} :
    ∀ (vs : List Value) (s s' : State), eachItem x fb vs s ≠ (.ok .brk, s')
  | [], s, s' => by simp [eachItem]
  | v :: vs, s, s' => by
    intro h
    simp only [eachItem, bind_ok_iff] at h
    obtain ⟨f1, s2, h3, h4⟩ := h
    cases f1 with
    | cont => exact eachItem_noBrk vs _ _ h4
    | brk => simp [loopNext] at h4
    | ret w => simp [loopNext] at h4

theorem inScope_ok {f : State → Res Flow} {s s' : State} {fl : Flow}
    (h : inScope f s = (.ok fl, s')) :
    ∃ s1, f (s.withEnv (·.pushScope)) = (.ok fl, s1) ∧ s' = s1.withEnv (·.popScope) := by
  simp only [inScope, bind_ok_iff, Prod.mk.injEq, Except.ok.injEq] at h
  obtain ⟨fl1, s1, h1, rfl, rfl⟩ := h
  exact ⟨s1, h1, rfl⟩

mutual
theorem exec_brk (n : Nat) : ∀ (st : Stmt) (s s' : State), exec I n st s = (.ok .brk, s') →
    breaksS st = true
  | .letS _ _ _ _, s, s', h => by
    simp [exec, bind_ok_iff, doDefine] at h
  | .set _ _, s, s', h => by
    simp only [exec, bind_ok_iff, doAssign] at h
    obtain ⟨_, _, _, h2⟩ := h
    split at h2 <;> simp at h2
  | .callS _ _, s, s', h => by simp [exec, bind_ok_iff] at h
  | .ifS c t e, s, s', h => by
    simp only [exec, bind_ok_iff] at h
    obtain ⟨v, s1, h1, h2⟩ := h
    simp only [breaksS, Bool.or_eq_true]
    split at h2
    · obtain ⟨s2, h3, _⟩ := inScope_ok h2
      exact .inl (execs_brk n t _ _ h3)
    · obtain ⟨s2, h3, _⟩ := inScope_ok h2
      exact .inr (execs_brk n e _ _ h3)
  | .whileS c b, s, s', h => by
    simp only [exec] at h
    exact absurd h (whileLoop_noBrk n s s')
  | .repeatS x e b, s, s', h => by
    simp only [exec, bind_ok_iff, repeatLoop, lift_ok_iff] at h
    obtain ⟨v, s1, h1, vs, s2, ⟨_, rfl⟩, h2⟩ := h
    obtain ⟨s3, h3, _⟩ := inScope_ok h2
    exact absurd h3 (eachItem_noBrk vs _ _)
  | .ret none, s, s', h => by simp [exec] at h
  | .ret (some e), s, s', h => by simp [exec, bind_ok_iff] at h
  | .brk, s, s', h => rfl
  | .funDef _ _ _, s, s', h => by simp [exec] at h
  | .showS _, s, s', h => by simp [exec, bind_ok_iff, doShow] at h
  | .assertS _, s, s', h => by
    simp only [exec, bind_ok_iff, doAssert] at h
    obtain ⟨_, _, _, h2⟩ := h
    split at h2 <;> simp at h2
  | .push _ _, s, s', h => by
    simp only [exec, bind_ok_iff, doPush] at h
    obtain ⟨_, _, _, h2⟩ := h
    split at h2
    · simp only [doAssign] at h2
      split at h2 <;> simp at h2
    · simp at h2
    · simp at h2

theorem execs_brk (n : Nat) : ∀ (ss : List Stmt) (s s' : State), execs I n ss s = (.ok .brk, s') →
    breaksSs ss = true
  | [], s, s', h => by simp [execs] at h
  | st :: ss, s, s', h => by
    simp only [execs, bind_ok_iff] at h
    obtain ⟨f1, s1, h1, h2⟩ := h
    simp only [breaksSs, Bool.or_eq_true]
    cases f1 with
    | cont => exact .inr (execs_brk n ss _ _ h2)
    | brk => exact .inl (exec_brk n st _ _ h1)
    | ret v => simp at h2
end

end

/-! ## What the repaired pass believes -/

/-- The beliefs are true, and no call can change the names they are about. -/
structure Bel (G own : List Sym) (V : IMap) (s : State) : Prop where
  val : ∀ x v, s.env.lookup x = some v → VIn v (V.range x)
  safe : ∀ x, V.range x ≠ .top → x ∉ G ∨ (s.env.cur x).isSome = true
  own : ∀ x ∈ own, x ∉ G ∨ (s.env.cur x).isSome = true

section
variable {G own : List Sym} {V : IMap}

theorem int_of_ne_top {v : Value} {i : Interval} (h : VIn v i) (hi : i ≠ .top) :
    v.isList = false := by
  cases v <;> simp_all [VIn, Value.isList]

/-- A protected name keeps a value that is not a list. -/
theorem keep {X : Sym → Prop} {s s' : State} (he : EffB (· ∈ G) X s s') {x : Sym} {v : Value}
    (hp : x ∉ G ∨ (s.env.cur x).isSome = true) (hX : ¬ X x) (hl : s.env.lookup x = some v)
    (hv : v.isList = false) : s'.env.lookup x = some v := by
  rw [lookup_cur] at hl ⊢
  obtain ⟨c1, c2⟩ := he.cur x
  cases hc : s.env.cur x with
  | some w =>
    simp only [hc, Option.some_or, Option.some.injEq] at hl
    subst hl
    rw [c2 hX _ hv hc]; rfl
  | none =>
    simp only [hc, Option.none_or] at hl
    have hg : x ∉ G := by
      rcases hp with h | h
      · exact h
      · simp [hc] at h
    have hc' : s'.env.cur x = none := by simpa [hc] using c1
    rw [hc', Option.none_or]
    exact (he.globals x).2 (by tauto) _ hv hl

theorem Bel.effB {X : Sym → Prop} {s s' : State} (h : Bel G own V s) (he : EffB (· ∈ G) X s s')
    (hx : ∀ x, V.range x ≠ .top → ¬ X x) : Bel G own V s' := by
  refine ⟨?_, ?_, ?_⟩
  · intro x v hl
    by_cases ht : V.range x = .top
    · rw [ht]; exact vin_top v
    · have hsome : ∃ w, s.env.lookup x = some w := by
        rw [lookup_cur] at hl
        obtain ⟨c1, _⟩ := he.cur x
        obtain ⟨g1, _⟩ := he.globals x
        rw [lookup_cur]
        cases hc : s.env.cur x with
        | some w => exact ⟨w, rfl⟩
        | none =>
          rw [hc] at c1
          have hc' : s'.env.cur x = none := by simpa using c1
          rw [hc', Option.none_or] at hl
          rw [hl] at g1
          cases hgx : s.env.globals x with
          | some w => exact ⟨w, rfl⟩
          | none => simp [hgx] at g1
      obtain ⟨w, hw⟩ := hsome
      have hw' := h.val x w hw
      have := keep he (h.safe x ht) (hx x ht) hw (int_of_ne_top hw' ht)
      rw [this] at hl
      cases hl
      exact hw'
  · intro x hne
    rcases h.safe x hne with h' | h'
    · exact .inl h'
    · exact .inr (by rw [(he.cur x).1]; exact h')
  · intro x hne
    rcases h.own x hne with h' | h'
    · exact .inl h'
    · exact .inr (by rw [(he.cur x).1]; exact h')

theorem Bel.effE {s s' : State} (h : Bel G own V s) (he : EffE (· ∈ G) s s') : Bel G own V s' :=
  h.effB (X := fun _ => False) he.toB (by simp)

theorem Bel.weaken {V' : IMap} {s : State} (h : Bel G own V s)
    (hv : ∀ x, V'.range x = .top ∨ V'.range x = V.range x) : Bel G own V' s := by
  refine ⟨?_, ?_, h.own⟩
  · intro x v hl
    rcases hv x with h' | h'
    · rw [h']; exact vin_top v
    · rw [h']; exact h.val x v hl
  · intro x hne
    rcases hv x with h' | h'
    · exact absurd h' hne
    · exact h.safe x (by rwa [h'] at hne)

theorem forget_range (V : IMap) (xs : List Sym) (x : Sym) :
    (x ∈ xs → (V.forget xs).range x = .top) ∧ (x ∉ xs → (V.forget xs).range x = V.range x) := by
  constructor
  · intro h; simp [IMap.range, IMap.forget, h]
  · intro h; simp [IMap.range, IMap.forget, h]

theorem forget_weaken (V : IMap) (xs : List Sym) (x : Sym) :
    (V.forget xs).range x = .top ∨ (V.forget xs).range x = V.range x := by
  by_cases h : x ∈ xs
  · exact .inl ((forget_range V xs x).1 h)
  · exact .inr ((forget_range V xs x).2 h)

theorem Bel.forget {s : State} (h : Bel G own V s) (xs : List Sym) : Bel G own (V.forget xs) s :=
  h.weaken (forget_weaken V xs)

theorem Bel.fewer {own' : List Sym} {s : State} (h : Bel G own V s) (ho : ∀ x ∈ own', x ∈ own) :
    Bel G own' V s := ⟨h.val, h.safe, fun x hx => h.own x (ho x hx)⟩

theorem put_range (V : IMap) (x y : Sym) (i : Option Interval) :
    (V.put x i).range y = if y = x then i.getD .top else V.range y := by
  unfold IMap.range IMap.put
  split <;> rfl

theorem Bel.define {s : State} (h : Bel G own V s) (hn : Nested s) (x : Sym) {v : Value}
    {i : Interval} (hv : VIn v i) :
    Bel G (x :: own) (V.put x (some i)) (s.withEnv (·.define x v)) := by
  obtain ⟨d1, d2⟩ := define_nested hn x v
  refine ⟨?_, ?_, ?_⟩
  · intro y w hl
    rw [lookup_cur] at hl
    simp only [State.withEnv, d1, d2] at hl
    rw [put_range]
    by_cases hy : y = x
    · subst hy
      simp only [VMap.put, if_true, Option.some_or, Option.some.injEq] at hl
      subst hl
      simpa using hv
    · simp only [VMap.put, hy, if_false] at hl ⊢
      exact h.val y w (by rw [lookup_cur]; exact hl)
  · intro y hne
    simp only [State.withEnv, d1]
    rw [put_range] at hne
    by_cases hy : y = x
    · subst hy; right; simp [VMap.put]
    · simp only [VMap.put, hy, if_false] at hne ⊢
      exact h.safe y hne
  · intro y hy
    simp only [State.withEnv, d1]
    by_cases hyx : y = x
    · subst hyx; right; simp [VMap.put]
    · simp only [VMap.put, hyx, if_false]
      exact h.own y (by simpa [hyx] using hy)

theorem Bel.defineTop {s : State} (h : Bel G own V s) (hn : Top s) (x : Sym) (hx : x ∉ G)
    {v : Value} {i : Interval} (hv : VIn v i) :
    Bel G (x :: own) (V.put x (some i)) (s.withEnv (·.define x v)) := by
  obtain ⟨d1, d2⟩ := define_top hn x v
  have hcur : ∀ y, (s.withEnv (·.define x v)).env.cur y = none := by
    intro y
    simp only [Env.cur, d1.1, List.isEmpty_nil, if_true]
    exact d1.2.2 y
  have hcur0 : ∀ y, s.env.cur y = none := by
    intro y
    simp only [Env.cur, hn.1, List.isEmpty_nil, if_true]
    exact hn.2.2 y
  refine ⟨?_, ?_, ?_⟩
  · intro y w hl
    rw [lookup_cur, hcur, d2, Option.none_or] at hl
    rw [put_range]
    by_cases hy : y = x
    · subst hy
      simp only [VMap.put, if_true, Option.some.injEq] at hl
      subst hl
      simpa using hv
    · simp only [VMap.put, hy, if_false] at hl ⊢
      exact h.val y w (by rw [lookup_cur, hcur0]; exact hl)
  · intro y hne
    rw [put_range] at hne
    by_cases hy : y = x
    · subst hy; exact .inl hx
    · simp only [hy, if_false] at hne
      rcases h.safe y hne with h' | h'
      · exact .inl h'
      · simp [hcur0] at h'
  · intro y hy
    by_cases hyx : y = x
    · subst hyx; exact .inl hx
    · rcases h.own y (by simpa [hyx] using hy) with h' | h'
      · exact .inl h'
      · simp [hcur0] at h'

theorem may_safe {s : State} (h : Bel G own V s) {x : Sym} (hm : may G own x = true) :
    x ∉ G ∨ (s.env.cur x).isSome = true := by
  simp only [may, Bool.or_eq_true, Bool.not_eq_true', List.contains_eq_mem,
    decide_eq_false_iff_not, decide_eq_true_eq] at hm
  rcases hm with hm | hm
  · exact .inl hm
  · exact h.own x hm

theorem Bel.assign {s s' : State} (h : Bel G own V s) {x : Sym} {v : Value} {fl : Flow}
    {i : Interval} (hv : VIn v i) (ha : doAssign x v s = (.ok fl, s')) :
    Bel G own (V.put x (if may G own x then some i else none)) s' := by
  unfold doAssign at ha
  split at ha
  case h_2 => cases ha
  rename_i e he
  simp only [Prod.mk.injEq] at ha
  obtain ⟨_, rfl⟩ := ha
  obtain ⟨_, _, _, h4⟩ := assign_cases he
  have hcur : ∀ y, (s.env.cur y).isSome = true → (e.cur y).isSome = true := by
    intro y hy
    rcases h4 with ⟨hc, _, _⟩ | ⟨hc, _⟩
    · rw [hc]; simp only [VMap.put]; split <;> simp_all
    · rw [hc]; exact hy
  have hlook : ∀ y, e.lookup y = if y = x then some v else s.env.lookup y := by
    intro y
    rw [lookup_cur, lookup_cur]
    rcases h4 with ⟨hc, _, hg⟩ | ⟨hc, hn, _, hg⟩
    · rw [hc, hg]; simp only [VMap.put]; split <;> simp
    · rw [hc, hg]; simp only [VMap.put]; split
      · rename_i hy; rw [hy, hn]; simp
      · rfl
  refine ⟨?_, ?_, ?_⟩
  · intro y w hl
    rw [hlook] at hl
    rw [put_range]
    by_cases hy : y = x
    · simp only [hy, if_true, Option.some.injEq] at hl ⊢
      subst hl
      split
      · exact hv
      · exact vin_top _
    · simp only [hy, if_false] at hl ⊢
      exact h.val y w hl
  · intro y hne
    rw [put_range] at hne
    by_cases hy : y = x
    · simp only [hy, if_true] at hne
      split at hne
      · rename_i hm
        rcases may_safe h hm with h' | h'
        · exact .inl (by rw [hy]; exact h')
        · exact .inr (by rw [hy]; exact hcur x h')
      · exact absurd rfl hne
    · simp only [hy, if_false] at hne
      exact (h.safe y hne).imp id (hcur y)
  · intro y hy
    exact (h.own y hy).imp id (hcur y)

end

/-! ## Expressions -/

/-- The instance of the checked interpreter. -/
structure IsIv (P : Prims) (I : Inst) : Prop where
  prims : I.P = P
  ap : I.ap = ivOp P
  reads : ∀ x v, I.reads x v = true

section
variable {P : Prims} {G own : List Sym} {V : IMap} {I : Inst}

theorem evVar_ok {x : Sym} {s s' : State} {v : Value} (h : evVar I x s = (.ok v, s')) :
    s.env.lookup x = some v ∧ s' = s := by
  unfold evVar at h
  split at h
  · split at h
    · rename_i w hw _
      simp only [Prod.mk.injEq, Except.ok.injEq] at h
      exact ⟨by rw [hw, h.1], h.2.symm⟩
    · cases h
  · cases h

theorem opRange_and (i j : Interval) : opRange subRight .and i j = .top ∧
    opRange subRight .or i j = .top := ⟨rfl, rfl⟩

/-- The interval of an expression agrees with its value. -/
theorem rangeE_sound (hl : LengthLaw P) (hI : IsIv P I) (hc : CallsEff (· ∈ G) I) :
    ∀ (e : Expr) (s : State) (v : Value) (s' : State), FunInv (· ∈ G) s → Bel G own V s →
      evalE I e s = (.ok v, s') → VIn v (rangeE subRight V.st e)
  | .lit l, s, v, s', _, _, h => by
    simp only [evalE, Prod.mk.injEq, Except.ok.injEq] at h
    obtain ⟨rfl, _⟩ := h
    cases l with
    | num n => exact exact_has n
    | _ => exact vin_top _
  | .var x, s, v, s', _, hb, h => by
    simp only [evalE] at h
    exact hb.val x v (evVar_ok h).1
  | .bin op a b, s, v, s', hi, hb, h => by
    by_cases h1 : op = .and
    · subst h1; exact vin_top _
    by_cases h2 : op = .or
    · subst h2; exact vin_top _
    simp only [evalE, evBin_strict h1 h2, bind_ok_iff, lift_ok_iff] at h
    obtain ⟨x, s1, h3, y, s2, h4, h5, _⟩ := h
    have e1 := evalE_eff hc a s x s1 hi h3
    have r1 := rangeE_sound hl hI hc a s x s1 hi hb h3
    have r2 := rangeE_sound hl hI hc b s1 y s2 e1.funs (hb.effE e1) h4
    rw [hI.ap] at h5
    exact opRange_sound r1 r2 h5
  | .length e, s, v, s', _, _, h => by
    have : rangeE subRight V.st (.length e) = .nonNegative := by
      cases e <;> simp [rangeE, IMap.st, IMap.len]
    rw [this]
    simp only [evalE, bind_ok_iff, lift_ok_iff] at h
    obtain ⟨a, s1, _, h2, _⟩ := h
    rw [hI.prims] at h2
    rcases hl a with ⟨n, hn⟩ | hn
    · rw [hn] at h2; cases h2
      exact ⟨Int.natCast_nonneg n, trivial⟩
    · rw [hn] at h2; cases h2
  | .not _, _, _, _, _, _, _ => vin_top _
  | .call _ _, _, _, _, _, _, _ => vin_top _
  | .callv _ _, _, _, _, _, _, _ => vin_top _
  | .list _, _, _, _, _, _, _ => vin_top _
  | .index _ _, _, _, _, _, _, _ => vin_top _
  | .closure _ _, _, _, _, _, _, _ => vin_top _

/-- A quiet evaluation: a value, or an error that trips, and nothing else. -/
def Quiet (r : Res Value) (s : State) : Prop :=
  (∃ v, r = (.ok v, s)) ∨ ∃ e, r = (.error e, s) ∧ IvTripped (some e)

theorem ivOp_quiet {op : BinOp} {a b : Value} {e : Err} (h : ivOp P op a b = .error e)
    (hq : ∀ k, b = .int k → (op = .div ∨ op = .mod) → k ≠ 0)
    (hd : (op = .div ∨ op = .mod) → b.isInt = true)
    (ho : op ≠ .pow ∧ op ≠ .exactDiv ∧ op ≠ .approxEq ∧ op ≠ .floorDiv) :
    IvTripped (some e) := by
  unfold ivOp at h
  split at h
  case isFalse => cases h; trivial
  split at h
  · split at h
    · cases h
    · cases h; trivial
  · rename_i e' he
    simp only [Except.error.injEq] at h
    subst h
    have : e' = Err.type := by
      cases op with
      | add => cases a <;> cases b <;> simp_all [applyOp, addVals]
      | sub => cases a <;> cases b <;> simp_all [applyOp, subVals]
      | mul =>
        cases a <;> cases b <;> simp_all [applyOp, mulVals, repeatVals] <;>
          (split at he <;> simp_all)
      | div =>
        obtain ⟨k, rfl⟩ := int_of_isInt (hd (.inl rfl))
        have := hq k rfl (.inl rfl)
        cases a <;> simp_all [applyOp, divVals]
      | mod =>
        obtain ⟨k, rfl⟩ := int_of_isInt (hd (.inr rfl))
        have := hq k rfl (.inr rfl)
        cases a <;> simp_all [applyOp, modVals]
      | lt => cases a <;> cases b <;> simp_all [applyOp, cmpVals]
      | gt => cases a <;> cases b <;> simp_all [applyOp, cmpVals]
      | le => cases a <;> cases b <;> simp_all [applyOp, cmpVals]
      | ge => cases a <;> cases b <;> simp_all [applyOp, cmpVals]
      | seqConcat => cases a <;> cases b <;> simp_all [applyOp, seqVals]
      | bitXor => cases a <;> cases b <;> simp_all [applyOp, bitVals] <;> (split at he <;> simp_all)
      | bitAnd => cases a <;> cases b <;> simp_all [applyOp, bitVals] <;> (split at he <;> simp_all)
      | bitOr => cases a <;> cases b <;> simp_all [applyOp, bitVals] <;> (split at he <;> simp_all)
      | shl => cases a <;> cases b <;> simp_all [applyOp, shiftVals] <;> (split at he <;> simp_all)
      | shr => cases a <;> cases b <;> simp_all [applyOp, shiftVals] <;> (split at he <;> simp_all)
      | _ => simp_all [applyOp]
    subst this
    trivial

theorem quiet_eval (hl : LengthLaw P) (hI : IsIv P I) : ∀ (e : Expr) (s : State),
    quietE e = true → Quiet (evalE I e s) s
  | .lit l, s, _ => .inl ⟨litVal l, by simp [evalE]⟩
  | .var x, s, _ => by
    simp only [evalE, evVar]
    cases s.env.lookup x with
    | none => exact .inr ⟨_, rfl, trivial⟩
    | some v => simp only [hI.reads, if_true]; exact .inl ⟨v, rfl⟩
  | .not a, s, h => by
    simp only [evalE]
    rcases quiet_eval hl hI a s h with ⟨v, hv⟩ | ⟨e, he, ht⟩
    · rw [hv]; exact .inl ⟨_, rfl⟩
    · rw [he]; exact .inr ⟨e, rfl, ht⟩
  | .length a, s, h => by
    simp only [evalE]
    rcases quiet_eval hl hI a s h with ⟨v, hv⟩ | ⟨e, he, ht⟩
    · rw [hv]
      simp only [bind_ok, lift, hI.prims]
      rcases hl v with ⟨n, hn⟩ | hn
      · rw [hn]; exact .inl ⟨_, rfl⟩
      · rw [hn]; exact .inr ⟨_, rfl, trivial⟩
    · rw [he]; exact .inr ⟨e, rfl, ht⟩
  | .bin op a b, s, h => by
    simp only [quietE, Bool.and_eq_true] at h
    obtain ⟨⟨hq, ha⟩, hb⟩ := h
    have h1 : op ≠ .and := by rintro rfl; simp [quietOp] at hq
    have h2 : op ≠ .or := by rintro rfl; simp [quietOp] at hq
    simp only [evalE, evBin_strict h1 h2]
    rcases quiet_eval hl hI a s ha with ⟨v, hv⟩ | ⟨e, he, ht⟩
    · rw [hv]
      simp only [bind_ok]
      rcases quiet_eval hl hI b s hb with ⟨w, hw⟩ | ⟨e, he, ht⟩
      · have hlit : ∀ {k : Int}, b = .lit (.num k) → w = .int k := by
          rintro k rfl
          simp only [evalE, litVal, Prod.mk.injEq, Except.ok.injEq] at hw
          exact hw.1.symm
        rw [hw]
        simp only [bind_ok, lift, hI.ap]
        cases hr : ivOp P op v w with
        | ok u => exact .inl ⟨u, rfl⟩
        | error e =>
          refine .inr ⟨e, rfl, ivOp_quiet hr ?_ ?_ ?_⟩
          · rintro k rfl hop
            rcases hop with rfl | rfl
            all_goals
              simp only [quietOp] at hq
              split at hq
              · rename_i k'
                have := hlit rfl
                cases this
                simpa using hq
              · cases hq
          · intro hop
            rcases hop with rfl | rfl
            all_goals
              simp only [quietOp] at hq
              split at hq
              · rename_i k'
                rw [hlit rfl]; rfl
              · cases hq
          · refine ⟨?_, ?_, ?_, ?_⟩ <;> rintro rfl <;> simp [quietOp] at hq
      · rw [he]; exact .inr ⟨e, rfl, ht⟩
    · rw [he]; exact .inr ⟨e, rfl, ht⟩
  | .call _ _, _, h => by simp [quietE] at h
  | .callv _ _, _, h => by simp [quietE] at h
  | .list _, _, h => by simp [quietE] at h
  | .index _ _, _, h => by simp [quietE] at h
  | .closure _ _, _, h => by simp [quietE] at h

theorem ivOp_ok {op : BinOp} {a b v : Value} (h : ivOp P op a b = .ok v) :
    applyOp P op a b = .ok v ∧ ivTame op a b = true := by
  unfold ivOp at h
  split at h
  · rename_i ht
    split at h
    · rename_i w hw
      split at h
      · cases h; exact ⟨hw, ht⟩
      · cases h
    · cases h
  · cases h

/-- A decided condition has that value. -/
theorem decideE_sound (hl : LengthLaw P) (hI : IsIv P I) (hc : CallsEff (· ∈ G) I) :
    ∀ (c : Expr) (d : Bool) (s : State) (v : Value) (s' : State), FunInv (· ∈ G) s →
      Bel G own V s → decideE subRight V.st c = some d → evalE I c s = (.ok v, s') → v = .bool d
  | .lit l, d, s, v, s', _, _, hd, h => by
    simp only [evalE, Prod.mk.injEq, Except.ok.injEq] at h
    obtain ⟨rfl, _⟩ := h
    cases l <;> simp_all [decideE, litVal]
  | .bin op a b, d, s, v, s', hi, hb, hd, h => by
    have h1 : op ≠ .and := by rintro rfl; simp [decideE, decideOp] at hd
    have h2 : op ≠ .or := by rintro rfl; simp [decideE, decideOp] at hd
    simp only [evalE, evBin_strict h1 h2, bind_ok_iff, lift_ok_iff] at h
    obtain ⟨x, s1, h3, y, s2, h4, h5, _⟩ := h
    have e1 := evalE_eff hc a s x s1 hi h3
    have r1 := rangeE_sound hl hI hc a s x s1 hi hb h3
    have r2 := rangeE_sound hl hI hc b s1 y s2 e1.funs (hb.effE e1) h4
    rw [hI.ap] at h5
    exact decideOp_sound r1 r2 hd (ivOp_ok h5).1
  | .not a, d, s, v, s', hi, hb, hd, h => by
    simp only [decideE, Option.map_eq_some_iff] at hd
    obtain ⟨d', hd', rfl⟩ := hd
    simp only [evalE, bind_ok_iff, Prod.mk.injEq, Except.ok.injEq] at h
    obtain ⟨w, s1, h1, rfl, _⟩ := h
    have := decideE_sound hl hI hc a d' s w s1 hi hb hd' h1
    subst this
    rfl
  | .var _, _, _, _, _, _, _, hd, _ => by simp [decideE] at hd
  | .length _, _, _, _, _, _, _, hd, _ => by simp [decideE] at hd
  | .call _ _, _, _, _, _, _, _, hd, _ => by simp [decideE] at hd
  | .callv _ _, _, _, _, _, _, _, hd, _ => by simp [decideE] at hd
  | .list _, _, _, _, _, _, _, hd, _ => by simp [decideE] at hd
  | .index _ _, _, _, _, _, _, _, hd, _ => by simp [decideE] at hd
  | .closure _ _, _, _, _, _, _, _, hd, _ => by simp [decideE] at hd

theorem rpDecide_sound (hl : LengthLaw P) (hI : IsIv P I) (hc : CallsEff (· ∈ G) I) {c : Expr}
    {d : Bool} {s : State} (hi : FunInv (· ∈ G) s) (hb : Bel G own V s)
    (hd : rpDecide c V = some d) :
    evalE I c s = (.ok (.bool d), s) ∨ ∃ e, evalE I c s = (.error e, s) ∧ IvTripped (some e) := by
  unfold rpDecide at hd
  split at hd
  · rename_i hq
    rcases quiet_eval hl hI c s hq with ⟨v, hv⟩ | he
    · left
      rw [hv, decideE_sound hl hI hc c d s v s hi hb hd hv]
    · exact .inr he
  · cases hd

/-- After a condition its narrowing is true. -/
theorem narrow_bel (hl : LengthLaw P) (hI : IsIv P I) (hc : CallsEff (· ∈ G) I) {c : Expr}
    {s s' : State} {v : Value} (hi : FunInv (· ∈ G) s) (hb : Bel G own V s)
    (h : evalE I c s = (.ok v, s')) :
    Bel G own (rpNarrow (if truthy I.P v then narrowBy else narrowNot) G own c V) s' := by
  have hb' := hb.effE (evalE_eff hc c s v s' hi h)
  unfold rpNarrow
  split
  case h_2 => exact hb'
  rename_i x hx
  split
  case isFalse => exact hb'
  rename_i hm
  unfold boundedVar at hx
  split at hx
  case h_2 => cases hx
  rename_i op y r
  split at hx
  case isFalse => cases hx
  rename_i ho
  cases hx
  simp only [narrowWith, ho, if_true]
  split
  case h_2 => exact hb'
  rename_i n hn
  have h1 : op ≠ .and := by rintro rfl; simp [isOrder] at ho
  have h2 : op ≠ .or := by rintro rfl; simp [isOrder] at ho
  simp only [evalE, evBin_strict h1 h2, bind_ok_iff, lift_ok_iff] at h
  obtain ⟨a, s1, h3, b, s2, h4, h5, rfl⟩ := h
  obtain ⟨hlk, rfl⟩ := evVar_ok h3
  have r2 := rangeE_sound hl hI hc r _ b s2 hi hb h4
  have hbn := vin_exact r2 hn
  subst hbn
  rw [hI.ap] at h5
  obtain ⟨h6, h7⟩ := ivOp_ok h5
  have ha : ∃ m, a = .int m := by
    cases op <;> simp [isOrder] at ho <;>
      (cases a <;> simp_all [applyOp, cmpVals, ivTame, Value.isFlt, Value.isInt])
  obtain ⟨m, rfl⟩ := ha
  have hd : ∃ d, v = .bool d := by
    cases op <;> simp [isOrder] at ho <;> simp only [applyOp, cmpVals, Except.ok.injEq] at h6 <;>
      exact ⟨_, h6.symm⟩
  obtain ⟨d, rfl⟩ := hd
  have e2 := evalE_eff hc r _ _ _ hi h4
  have hk := keep (EffE.toB (X := fun _ => False) e2) (may_safe hb hm) (by simp) hlk rfl
  have hin := narrow_has ho (hb.val x _ hlk) h6
  refine ⟨?_, ?_, hb'.own⟩
  · intro y w hy
    show VIn w ((V.put x _).range y)
    rw [put_range]
    by_cases hyx : y = x
    · subst hyx
      rw [hk] at hy
      cases hy
      simp only [if_true, Option.getD_some]
      exact hin
    · simp only [hyx, if_false]
      exact hb'.val y w hy
  · intro y hne
    have hne' : (V.put x (some ((if truthy I.P (.bool d) then narrowBy else narrowNot) op n
        (V.range x)))).range y ≠ .top := hne
    rw [put_range] at hne'
    by_cases hyx : y = x
    · subst hyx; exact may_safe hb' hm
    · simp only [hyx, if_false] at hne'
      exact hb'.safe y hne'

end

end Verif.Lang
