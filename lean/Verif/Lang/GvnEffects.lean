import Verif.Lang.FoldLemmas
import Verif.Lang.Sim
import Verif.Lang.Effects
import Verif.Lang.GvnSpec
import Mathlib.Tactic.Tauto

/-!
# What running code can do to the variables

As in `Effects.lean`, but pushes count as assignments, so that lists outside the written names keep
their values too.
-/
namespace Verif.Lang.Gvn

/-! ## Maps -/

/-- `m'` has the same names as `m`, and the names outside `X` hold the same value. -/
def Pres (X : Sym → Prop) (m m' : VMap) : Prop :=
  ∀ x, (m' x).isSome = (m x).isSome ∧ (¬ X x → m' x = m x)

theorem Pres.refl (X : Sym → Prop) (m : VMap) : Pres X m m := fun _ => ⟨rfl, fun _ => rfl⟩

theorem Pres.trans {X : Sym → Prop} {a b c : VMap} (h1 : Pres X a b) (h2 : Pres X b c) :
    Pres X a c := fun x => ⟨(h2 x).1.trans (h1 x).1, fun hx => ((h2 x).2 hx).trans ((h1 x).2 hx)⟩

theorem Pres.mono {X Y : Sym → Prop} {a b : VMap} (h : Pres X a b) (hXY : ∀ x, X x → Y x) :
    Pres Y a b := fun x => ⟨(h x).1, fun hx => (h x).2 fun h' => hx (hXY x h')⟩

theorem Pres.put {X : Sym → Prop} {m : VMap} {x : Sym} {v : Value} (hx : X x)
    (hm : (m x).isSome = true) : Pres X m (m.put x (some v)) := by
  intro y
  by_cases hy : y = x
  · subst hy; simp [VMap.put, hm]; intro h; exact absurd hx h
  · simp [VMap.put, hy]

theorem Pres.undo {X : Sym → Prop} : ∀ (f : List (Sym × Option Value)) {a b : VMap},
    Pres X a b → Pres X (undo a f) (undo b f)
  | [], _, _, h => h
  | (x, old) :: f, a, b, h => by
    simp only [Verif.Lang.undo]
    apply Pres.undo f
    intro y
    by_cases hy : y = x
    · subst hy; simp [VMap.put]
    · simpa [VMap.put, hy] using h y

mutual
theorem allWritesS_split : ∀ (s : Stmt) (x : Sym), x ∈ allWritesS s ↔ x ∈ writesS s ∨ x ∈ funWritesS s
  | .letS _ _ _ _, x => by simp [allWritesS, writesS, funWritesS]
  | .set _ _, x => by simp [allWritesS, writesS, funWritesS]
  | .callS _ _, x => by simp [allWritesS, writesS, funWritesS]
  | .ifS _ t e, x => by
    simp only [allWritesS, writesS, funWritesS, List.mem_append, allWritesSs_split t x, allWritesSs_split e x]
    tauto
  | .whileS _ b, x => by simp only [allWritesS, writesS, funWritesS, allWritesSs_split b x]
  | .repeatS _ _ b, x => by simp only [allWritesS, writesS, funWritesS, allWritesSs_split b x]
  | .ret _, x => by simp [allWritesS, writesS, funWritesS]
  | .brk, x => by simp [allWritesS, writesS, funWritesS]
  | .funDef _ _ b, x => by simp [allWritesS, writesS, funWritesS]
  | .showS _, x => by simp [allWritesS, writesS, funWritesS]
  | .assertS _, x => by simp [allWritesS, writesS, funWritesS]
  | .push _ _, x => by simp [allWritesS, writesS, funWritesS]

theorem allWritesSs_split : ∀ (ss : List Stmt) (x : Sym),
    x ∈ allWritesSs ss ↔ x ∈ writesSs ss ∨ x ∈ funWritesSs ss
  | [], x => by simp [allWritesSs, writesSs, funWritesSs]
  | s :: ss, x => by
    simp only [allWritesSs, writesSs, funWritesSs, List.mem_append, allWritesS_split s x,
      allWritesSs_split ss x]
    tauto
end

/-- Functions known to the state only assign names in `G`. -/
def FunInv (G : Sym → Prop) (s : State) : Prop :=
  ∀ f fd, s.funs f = some fd → ∀ x ∈ allWritesSs fd.body, G x

/-- The target of a call only assigns names in `G`. -/
def TgtInv (G : Sym → Prop) : Target → Prop
  | .fn fd => ∀ x ∈ allWritesSs fd.body, G x
  | .clo _ => True

/-- The effect of a statement that is not a `Let`, or of a block, on the frame it runs in: names
outside `X` keep their values; globals also change in `G`. -/
structure EffB (G X : Sym → Prop) (s s' : State) : Prop where
  frames : s'.env.frames = s.env.frames
  saves : s'.env.saves = s.env.saves
  cur : Pres X s.env.cur s'.env.cur
  main : s.env.frames ≠ [] → s'.env.mainBlock = s.env.mainBlock
  globals : Pres (fun x => G x ∨ X x) s.env.globals s'.env.globals
  funs : FunInv G s'

/-- The effect of statements inside a block: as before once the declarations made since are
undone. -/
structure EffS (G X : Sym → Prop) (s s' : State) : Prop where
  frames : s'.env.frames = s.env.frames
  saves : ∀ f rest, s.env.saves = f :: rest →
    ∃ f', s'.env.saves = (f' ++ f) :: rest ∧ Pres X s.env.cur (undo s'.env.cur f')
  main : s.env.frames ≠ [] → s'.env.mainBlock = s.env.mainBlock
  globals : Pres (fun x => G x ∨ X x) s.env.globals s'.env.globals
  funs : FunInv G s'

section
variable {G X : Sym → Prop}

theorem EffB.refl {s : State} (h : FunInv G s) : EffB G X s s :=
  ⟨rfl, rfl, .refl _ _, fun _ => rfl, .refl _ _, h⟩

theorem EffB.trans {s t u : State} (h1 : EffB G X s t) (h2 : EffB G X t u) : EffB G X s u :=
  ⟨h2.frames.trans h1.frames, h2.saves.trans h1.saves, h1.cur.trans h2.cur,
    fun h => (h2.main (by rw [h1.frames]; exact h)).trans (h1.main h), h1.globals.trans h2.globals,
    h2.funs⟩

theorem EffB.mono {Y : Sym → Prop} {s t : State} (h : EffB G X s t) (hXY : ∀ x, X x → Y x) :
    EffB G Y s t :=
  ⟨h.frames, h.saves, h.cur.mono hXY, h.main,
    h.globals.mono fun x hx => hx.imp id (hXY x), h.funs⟩

theorem EffB.toS {s t : State} (h : EffB G X s t) : EffS G X s t :=
  ⟨h.frames, fun f rest hs => ⟨[], by rw [h.saves, hs]; rfl, h.cur⟩, h.main, h.globals, h.funs⟩

theorem EffS.trans {s t u : State} (h1 : EffS G X s t) (h2 : EffS G X t u) : EffS G X s u := by
  refine ⟨h2.frames.trans h1.frames, ?_,
    fun h => (h2.main (by rw [h1.frames]; exact h)).trans (h1.main h),
    h1.globals.trans h2.globals, h2.funs⟩
  intro f rest hs
  obtain ⟨f1, hs1, hp1⟩ := h1.saves f rest hs
  obtain ⟨f2, hs2, hp2⟩ := h2.saves (f1 ++ f) rest hs1
  refine ⟨f2 ++ f1, by rw [hs2, List.append_assoc], ?_⟩
  rw [undo_append]
  exact hp1.trans (Pres.undo f1 hp2)

theorem EffS.mono {Y : Sym → Prop} {s t : State} (h : EffS G X s t) (hXY : ∀ x, X x → Y x) :
    EffS G Y s t :=
  ⟨h.frames, fun f rest hs => by
    obtain ⟨f', h1, h2⟩ := h.saves f rest hs
    exact ⟨f', h1, h2.mono hXY⟩, h.main,
    h.globals.mono fun x hx => hx.imp id (hXY x), h.funs⟩

/-- Leaving a block undoes its declarations. -/
theorem EffS.pop {s t : State} (h : EffS G X (s.withEnv (·.pushScope)) t) :
    EffB G X s (t.withEnv (·.popScope)) := by
  obtain ⟨f', h1, h2⟩ := h.saves [] s.env.saves rfl
  rw [List.append_nil] at h1
  have hfr : t.env.frames = s.env.frames := h.frames
  have hpop : t.env.popScope = (if t.env.frames.isEmpty then
      { t.env with saves := s.env.saves, mainBlock := undo t.env.mainBlock f' }
      else { t.env with saves := s.env.saves, locals := undo t.env.locals f' }) := by
    unfold Env.popScope
    rw [h1]
  have hcur : (t.env.popScope).cur = undo t.env.cur f' := by
    rw [hpop]
    unfold Env.cur
    by_cases hf : t.env.frames.isEmpty = true
    · simp [hf]
    · simp [hf]
  refine ⟨?_, ?_, ?_, ?_, ?_, h.funs⟩
  · show t.env.popScope.frames = _
    rw [hpop]; split <;> exact hfr
  · show t.env.popScope.saves = _
    rw [hpop]; split <;> rfl
  · show Pres X s.env.cur t.env.popScope.cur
    rw [hcur]
    exact h2
  · intro hne
    show t.env.popScope.mainBlock = _
    rw [hpop]
    have hne' : t.env.frames.isEmpty = false := by
      rw [hfr]; cases hs : s.env.frames with
      | nil => exact absurd hs hne
      | cons _ _ => rfl
    simp only [hne', Bool.false_eq_true, if_false]
    exact h.main hne
  · show Pres _ s.env.globals t.env.popScope.globals
    have : t.env.popScope.globals = t.env.globals := by rw [hpop]; split <;> rfl
    rw [this]
    exact h.globals

/-- A declaration inside a block or function. -/
theorem define_effS {s : State} (h : FunInv G s) (hctx : s.env.saves ≠ [] ∨ s.env.frames ≠ [])
    (x : Sym) (v : Value) : EffS G X s (s.withEnv (·.define x v)) := by
  by_cases hf : s.env.frames.isEmpty = true
  · have hf' : s.env.frames = [] := List.isEmpty_iff.1 hf
    have hs : s.env.saves ≠ [] := by
      rcases hctx with h | h
      · exact h
      · exact absurd hf' h
    have hs' : s.env.saves.isEmpty = false := by
      cases hx : s.env.saves with
      | nil => exact absurd hx hs
      | cons _ _ => rfl
    refine ⟨?_, ?_, ?_, ?_, h⟩
    · simp [State.withEnv, Env.define, hf, hs']
    · intro f rest he
      refine ⟨[(x, s.env.mainBlock x)], ?_, ?_⟩
      · simp [State.withEnv, Env.define, hf, he, recordSave]
      · have : (s.withEnv (·.define x v)).env.cur = s.env.mainBlock.put x (some v) := by
          simp [State.withEnv, Env.define, hf, hs', Env.cur]
        rw [this]
        simp only [undo, put_put, put_self]
        simp only [Env.cur, hf, if_true]
        exact .refl _ _
    · intro h; exact absurd hf' h
    · have : (s.withEnv (·.define x v)).env.globals = s.env.globals := by
        simp [State.withEnv, Env.define, hf, hs']
      rw [this]; exact .refl _ _
  · have hf2 : s.env.frames.isEmpty = false := by simpa using hf
    refine ⟨?_, ?_, ?_, ?_, h⟩
    · simp [State.withEnv, Env.define, hf2]
    · intro f rest he
      refine ⟨[(x, s.env.locals x)], ?_, ?_⟩
      · simp [State.withEnv, Env.define, hf2, he, recordSave]
      · have : (s.withEnv (·.define x v)).env.cur = s.env.locals.put x (some v) := by
          simp [State.withEnv, Env.define, hf2, Env.cur]
        rw [this]
        simp only [undo, put_put, put_self]
        simp only [Env.cur, hf2]
        exact .refl _ _
    · intro _; simp [State.withEnv, Env.define, hf2]
    · have : (s.withEnv (·.define x v)).env.globals = s.env.globals := by
        simp [State.withEnv, Env.define, hf2]
      rw [this]; exact .refl _ _

theorem doAssign_eff {s s' : State} {x : Sym} {v : Value} {fl : Flow} (hi : FunInv G s) (hx : X x)
    (h : doAssign x v s = (.ok fl, s')) : EffB G X s s' ∧ fl = .cont := by
  unfold doAssign at h
  split at h
  · rename_i e he
    simp only [Prod.mk.injEq, Except.ok.injEq] at h
    obtain ⟨rfl, rfl⟩ := h
    obtain ⟨h1, h2, h3, h4⟩ := assign_cases he
    refine ⟨⟨h1, h2, ?_, h3, ?_, hi⟩, rfl⟩
    · rcases h4 with ⟨hc, hs, _⟩ | ⟨hc, _⟩
      · show Pres X s.env.cur e.cur
        rw [hc]; exact .put hx hs
      · show Pres X s.env.cur e.cur
        rw [hc]; exact .refl _ _
    · rcases h4 with ⟨_, _, hg⟩ | ⟨_, _, hs, hg⟩
      · show Pres _ s.env.globals e.globals
        rw [hg]; exact .refl _ _
      · show Pres _ s.env.globals e.globals
        rw [hg]; exact .put (.inr hx) hs
  · cases h

theorem doPush_eff {s s' : State} {x : Sym} {v : Value} {fl : Flow} (hi : FunInv G s) (hx : X x)
    (h : doPush x v s = (.ok fl, s')) : EffB G X s s' ∧ fl = .cont := by
  unfold doPush at h
  split at h
  · exact doAssign_eff hi hx h
  · cases h
  · cases h

end

/-! ## Expressions -/

/-- The effect of an expression: nothing in the current frame changes, and globals change only in
`G`. -/
structure EffE (G : Sym → Prop) (s s' : State) : Prop where
  frames : s'.env.frames = s.env.frames
  saves : s'.env.saves = s.env.saves
  locals : s'.env.locals = s.env.locals
  main : s'.env.mainBlock = s.env.mainBlock
  globals : Pres G s.env.globals s'.env.globals
  funs : FunInv G s'

theorem EffE.refl {G : Sym → Prop} {s : State} (h : FunInv G s) : EffE G s s :=
  ⟨rfl, rfl, rfl, rfl, .refl _ _, h⟩

theorem EffE.trans {G : Sym → Prop} {s t u : State} (h1 : EffE G s t) (h2 : EffE G t u) :
    EffE G s u :=
  ⟨h2.frames.trans h1.frames, h2.saves.trans h1.saves, h2.locals.trans h1.locals,
    h2.main.trans h1.main, h1.globals.trans h2.globals, h2.funs⟩

theorem EffE.toB {G X : Sym → Prop} {s t : State} (h : EffE G s t) : EffB G X s t := by
  refine ⟨h.frames, h.saves, ?_, fun _ => h.main, h.globals.mono fun _ => .inl, h.funs⟩
  have : t.env.cur = s.env.cur := by unfold Env.cur; rw [h.frames, h.locals, h.main]
  rw [this]; exact .refl _ _

/-- Calls only change globals in `G`. -/
def CallsEff (G : Sym → Prop) (I : Inst) : Prop :=
  ∀ t vs s v s', FunInv G s → TgtInv G t → I.invoke t vs s = (.ok v, s') → EffE G s s'

section
variable {G : Sym → Prop} {I : Inst}

theorem evCall_eff (hc : CallsEff G I) {f : Sym} {n : Nat} {fa : State → Res (List Value)}
    (ha : ∀ s vs s', FunInv G s → fa s = (.ok vs, s') → EffE G s s') {s s' : State} {v : Value}
    (hi : FunInv G s) (h : evCall I f n fa s = (.ok v, s')) : EffE G s s' := by
  unfold evCall at h
  split at h
  · rw [bind_ok_iff] at h
    obtain ⟨vs, s1, h1, h2⟩ := h
    rw [lift_ok_iff] at h2
    obtain ⟨_, rfl⟩ := h2
    exact ha _ _ _ hi h1
  · split at h
    · rename_i fd hfd
      split at h
      · rw [bind_ok_iff] at h
        obtain ⟨vs, s1, h1, h2⟩ := h
        have e1 := ha _ _ _ hi h1
        exact e1.trans (hc (.fn fd) _ _ _ _ e1.funs (hi _ _ hfd) h2)
      · cases h
    · split at h
      · rw [bind_ok_iff] at h
        obtain ⟨vs, s1, h1, h2⟩ := h
        have e1 := ha _ _ _ hi h1
        exact e1.trans (hc (.clo _) _ _ _ _ e1.funs trivial h2)
      · cases h

theorem evBin_eff {op : BinOp} {fa fb : State → Res Value}
    (ha : ∀ s v s', FunInv G s → fa s = (.ok v, s') → EffE G s s')
    (hb : ∀ s v s', FunInv G s → fb s = (.ok v, s') → EffE G s s') {s s' : State} {v : Value}
    (hi : FunInv G s) (h : evBin I op fa fb s = (.ok v, s')) : EffE G s s' := by
  have hbo : ∀ s1 v s', FunInv G s1 → boolOut I.P (fb s1) = (.ok v, s') → EffE G s1 s' := by
    intro s1 v s' hi1 h1
    unfold boolOut at h1
    rw [bind_ok_iff] at h1
    obtain ⟨w, s2, h2, h3⟩ := h1
    simp only [Prod.mk.injEq] at h3
    obtain ⟨_, rfl⟩ := h3
    exact hb _ _ _ hi1 h2
  unfold evBin at h
  split at h
  · rw [bind_ok_iff] at h
    obtain ⟨a, s1, h1, h2⟩ := h
    have e1 := ha _ _ _ hi h1
    split at h2
    · exact e1.trans (hbo _ _ _ e1.funs h2)
    · simp only [Prod.mk.injEq] at h2
      obtain ⟨_, rfl⟩ := h2
      exact e1
  · rw [bind_ok_iff] at h
    obtain ⟨a, s1, h1, h2⟩ := h
    have e1 := ha _ _ _ hi h1
    split at h2
    · simp only [Prod.mk.injEq] at h2
      obtain ⟨_, rfl⟩ := h2
      exact e1
    · exact e1.trans (hbo _ _ _ e1.funs h2)
  · rw [bind_ok_iff] at h
    obtain ⟨a, s1, h1, h2⟩ := h
    have e1 := ha _ _ _ hi h1
    rw [bind_ok_iff] at h2
    obtain ⟨b, s2, h3, h4⟩ := h2
    have e2 := hb _ _ _ e1.funs h3
    rw [lift_ok_iff] at h4
    obtain ⟨_, rfl⟩ := h4
    exact e1.trans e2

mutual
theorem evalE_eff (hc : CallsEff G I) : ∀ (e : Expr) (s : State) (v : Value) (s' : State),
    FunInv G s → evalE I e s = (.ok v, s') → EffE G s s'
  | .lit l, s, v, s', hi, h => by
    simp only [evalE, Prod.mk.injEq] at h
    obtain ⟨_, rfl⟩ := h
    exact .refl hi
  | .var x, s, v, s', hi, h => by
    simp only [evalE, evVar] at h
    split at h
    · split at h
      · simp only [Prod.mk.injEq] at h
        obtain ⟨_, rfl⟩ := h
        exact .refl hi
      · cases h
    · cases h
  | .bin op a b, s, v, s', hi, h => by
    simp only [evalE] at h
    exact evBin_eff (evalE_eff hc a) (evalE_eff hc b) hi h
  | .not a, s, v, s', hi, h => by
    simp only [evalE, bind_ok_iff] at h
    obtain ⟨w, s1, h1, h2⟩ := h
    simp only [Prod.mk.injEq] at h2
    obtain ⟨_, rfl⟩ := h2
    exact evalE_eff hc a _ _ _ hi h1
  | .call f args, s, v, s', hi, h => by
    simp only [evalE] at h
    exact evCall_eff hc (evalEs_eff hc args) hi h
  | .callv c args, s, v, s', hi, h => by
    simp only [evalE, bind_ok_iff] at h
    obtain ⟨w, s1, h1, h2⟩ := h
    have e1 := evalE_eff hc c _ _ _ hi h1
    unfold evCallv at h2
    split at h2
    · rw [bind_ok_iff] at h2
      obtain ⟨vs, s2, h3, h4⟩ := h2
      have e2 := evalEs_eff hc args _ _ _ e1.funs h3
      exact e1.trans (e2.trans (hc (.clo _) _ _ _ _ e2.funs trivial h4))
    · cases h2
  | .list items, s, v, s', hi, h => by
    simp only [evalE, bind_ok_iff] at h
    obtain ⟨w, s1, h1, h2⟩ := h
    simp only [Prod.mk.injEq] at h2
    obtain ⟨_, rfl⟩ := h2
    exact evalEs_eff hc items _ _ _ hi h1
  | .index c i, s, v, s', hi, h => by
    simp only [evalE, bind_ok_iff, lift_ok_iff] at h
    obtain ⟨a, s1, h1, b, s2, h2, _, rfl⟩ := h
    have e1 := evalE_eff hc c _ _ _ hi h1
    exact e1.trans (evalE_eff hc i _ _ _ e1.funs h2)
  | .length c, s, v, s', hi, h => by
    simp only [evalE, bind_ok_iff, lift_ok_iff] at h
    obtain ⟨a, s1, h1, _, rfl⟩ := h
    exact evalE_eff hc c _ _ _ hi h1
  | .closure ps b, s, v, s', hi, h => by
    simp only [evalE, evClosure, Prod.mk.injEq] at h
    obtain ⟨_, rfl⟩ := h
    exact ⟨rfl, rfl, rfl, rfl, .refl _ _, hi⟩

theorem evalEs_eff (hc : CallsEff G I) : ∀ (es : List Expr) (s : State) (vs : List Value)
    (s' : State), FunInv G s → evalEs I es s = (.ok vs, s') → EffE G s s'
  | [], s, vs, s', hi, h => by
    simp only [evalEs, Prod.mk.injEq] at h
    obtain ⟨_, rfl⟩ := h
    exact .refl hi
  | e :: es, s, vs, s', hi, h => by
    simp only [evalEs, bind_ok_iff, Prod.mk.injEq] at h
    obtain ⟨a, s1, h1, b, s2, h2, _, rfl⟩ := h
    have e1 := evalE_eff hc e _ _ _ hi h1
    exact e1.trans (evalEs_eff hc es _ _ _ e1.funs h2)
end

end

/-! ## Statements -/

section
variable {G X : Sym → Prop} {I : Inst}

theorem inScope_eff {f : State → Res Flow}
    (hf : ∀ s fl s', FunInv G s → s.env.saves ≠ [] → f s = (.ok fl, s') → EffS G X s s')
    {s s' : State} {fl : Flow} (hi : FunInv G s) (h : inScope f s = (.ok fl, s')) :
    EffB G X s s' := by
  simp only [inScope, bind_ok_iff, Prod.mk.injEq] at h
  obtain ⟨fl1, s1, h1, _, rfl⟩ := h
  exact (hf (s.withEnv (·.pushScope)) _ _ hi (by simp [State.withEnv, Env.pushScope]) h1).pop

theorem whileLoop_eff {P : Prims} {fc : State → Res Value} {fb : State → Res Flow}
    (hc : ∀ s v s', FunInv G s → fc s = (.ok v, s') → EffB G X s s')
    (hb : ∀ s fl s', FunInv G s → fb s = (.ok fl, s') → EffB G X s s') :
    ∀ (n : Nat) (s : State) (fl : Flow) (s' : State), FunInv G s →
      whileLoop P fc fb n s = (.ok fl, s') → EffB G X s s'
  | 0, s, fl, s', hi, h => by cases h
  | n + 1, s, fl, s', hi, h => by
    simp only [whileLoop, whileStep, bind_ok_iff] at h
    obtain ⟨v, s1, h1, h2⟩ := h
    have e1 := hc _ _ _ hi h1
    split at h2
    · rw [bind_ok_iff] at h2
      obtain ⟨f1, s2, h3, h4⟩ := h2
      have e2 := hb _ _ _ e1.funs h3
      cases f1 with
      | cont => exact e1.trans (e2.trans (whileLoop_eff hc hb n _ _ _ e2.funs h4))
      | brk =>
        simp only [loopNext, Prod.mk.injEq] at h4
        obtain ⟨_, rfl⟩ := h4
        exact e1.trans e2
      | ret w =>
        simp only [loopNext, Prod.mk.injEq] at h4
        obtain ⟨_, rfl⟩ := h4
        exact e1.trans e2
    · simp only [Prod.mk.injEq] at h2
      obtain ⟨_, rfl⟩ := h2
      exact e1

theorem EffS.saves_ne {s t : State} (h : EffS G X s t) (hs : s.env.saves ≠ []) :
    t.env.saves ≠ [] := by
  cases e : s.env.saves with
  | nil => exact absurd e hs
  | cons f rest =>
    obtain ⟨f', h1, _⟩ := h.saves f rest e
    rw [h1]; simp

theorem eachItem_eff (x : Sym) {fb : State → Res Flow}
    (hb : ∀ s fl s', FunInv G s → fb s = (.ok fl, s') → EffB G X s s') :
    ∀ (vs : List Value) (s : State) (fl : Flow) (s' : State), FunInv G s → s.env.saves ≠ [] →
      eachItem x fb vs s = (.ok fl, s') → EffS G X s s'
  | [], s, fl, s', hi, _, h => by
    simp only [eachItem, Prod.mk.injEq] at h
    obtain ⟨_, rfl⟩ := h
    exact (EffB.refl hi).toS
  | v :: vs, s, fl, s', hi, hs, h => by
    simp only [eachItem, bind_ok_iff] at h
    obtain ⟨f1, s1, h1, h2⟩ := h
    have e0 := define_effS (G := G) (X := X) hi (.inl hs) x v
    have e1 := e0.trans (hb _ _ _ e0.funs h1).toS
    cases f1 with
    | cont => exact e1.trans (eachItem_eff x hb vs _ _ _ e1.funs (e1.saves_ne hs) h2)
    | brk =>
      simp only [loopNext, Prod.mk.injEq] at h2
      obtain ⟨_, rfl⟩ := h2
      exact e1
    | ret w =>
      simp only [loopNext, Prod.mk.injEq] at h2
      obtain ⟨_, rfl⟩ := h2
      exact e1

mutual
theorem exec_eff (hc : CallsEff G I) (n : Nat) : ∀ (st : Stmt) (s : State) (fl : Flow) (s' : State),
    isLet st = false → (∀ x ∈ writesS st, X x) → (∀ x ∈ funWritesS st, G x) → FunInv G s →
    exec I n st s = (.ok fl, s') → EffB G X s s'
  | .letS _ _ _ _, s, fl, s', hl, _, _, _, _ => by simp [isLet] at hl
  | .set x e, s, fl, s', _, hx, _, hi, h => by
    simp only [exec, bind_ok_iff] at h
    obtain ⟨v, s1, h1, h2⟩ := h
    have e1 := evalE_eff hc e _ _ _ hi h1
    exact (EffE.toB e1).trans (doAssign_eff e1.funs (hx x (by simp [writesS])) h2).1
  | .callS f args, s, fl, s', _, _, _, hi, h => by
    simp only [exec, bind_ok_iff, Prod.mk.injEq] at h
    obtain ⟨v, s1, h1, _, rfl⟩ := h
    exact (evalE_eff hc _ _ _ _ hi h1).toB
  | .ifS c t e, s, fl, s', _, hx, hg, hi, h => by
    simp only [exec, bind_ok_iff] at h
    obtain ⟨v, s1, h1, h2⟩ := h
    have e1 := evalE_eff hc c _ _ _ hi h1
    split at h2
    · exact (EffE.toB e1).trans (inScope_eff (fun s fl s' hi hs h => execs_eff hc n t s fl s' (.inl hs)
        (fun x h' => hx x (by simp [writesS, h'])) (fun x h' => hg x (by simp [funWritesS, h'])) hi h)
        e1.funs h2)
    · exact (EffE.toB e1).trans (inScope_eff (fun s fl s' hi hs h => execs_eff hc n e s fl s' (.inl hs)
        (fun x h' => hx x (by simp [writesS, h'])) (fun x h' => hg x (by simp [funWritesS, h'])) hi h)
        e1.funs h2)
  | .whileS c b, s, fl, s', _, hx, hg, hi, h => by
    simp only [exec] at h
    exact whileLoop_eff (fun s v s' hi h => (evalE_eff hc c s v s' hi h).toB)
      (fun s fl s' hi h => inScope_eff (fun s fl s' hi hs h => execs_eff hc n b s fl s' (.inl hs)
        (fun x h' => hx x (by simp [writesS, h'])) (fun x h' => hg x (by simp [funWritesS, h'])) hi h)
        hi h) n _ _ _ hi h
  | .repeatS x e b, s, fl, s', _, hx, hg, hi, h => by
    simp only [exec, bind_ok_iff, repeatLoop, lift_ok_iff] at h
    obtain ⟨v, s1, h1, vs, s2, ⟨_, rfl⟩, h2⟩ := h
    have e1 := evalE_eff hc e _ _ _ hi h1
    refine (EffE.toB e1).trans (inScope_eff (fun s fl s' hi hs h => eachItem_eff x ?_ vs s fl s' hi hs h)
      e1.funs h2)
    exact fun s fl s' hi h => inScope_eff (fun s fl s' hi hs h => execs_eff hc n b s fl s' (.inl hs)
        (fun x h' => hx x (by simp [writesS, h'])) (fun x h' => hg x (by simp [funWritesS, h'])) hi h)
        hi h
  | .ret none, s, fl, s', _, _, _, hi, h => by
    simp only [exec, Prod.mk.injEq] at h
    obtain ⟨_, rfl⟩ := h
    exact .refl hi
  | .ret (some e), s, fl, s', _, _, _, hi, h => by
    simp only [exec, bind_ok_iff, Prod.mk.injEq] at h
    obtain ⟨v, s1, h1, _, rfl⟩ := h
    exact (evalE_eff hc _ _ _ _ hi h1).toB
  | .brk, s, fl, s', _, _, _, hi, h => by
    simp only [exec, Prod.mk.injEq] at h
    obtain ⟨_, rfl⟩ := h
    exact .refl hi
  | .funDef f ps b, s, fl, s', _, _, hg, hi, h => by
    simp only [exec, Prod.mk.injEq] at h
    obtain ⟨_, rfl⟩ := h
    refine ⟨rfl, rfl, .refl _ _, fun _ => rfl, .refl _ _, ?_⟩
    intro g fd hfd x hx
    simp only [defineFun] at hfd
    split at hfd
    · cases hfd
      exact hg x (by simpa [funWritesS] using hx)
    · exact hi g fd hfd x hx
  | .showS e, s, fl, s', _, _, _, hi, h => by
    simp only [exec, bind_ok_iff, doShow, Prod.mk.injEq] at h
    obtain ⟨v, s1, h1, _, rfl⟩ := h
    have e1 := (evalE_eff hc _ _ _ _ hi h1).toB (X := X)
    exact ⟨e1.frames, e1.saves, e1.cur, e1.main, e1.globals, e1.funs⟩
  | .assertS e, s, fl, s', _, _, _, hi, h => by
    simp only [exec, bind_ok_iff, doAssert] at h
    obtain ⟨v, s1, h1, h2⟩ := h
    split at h2
    · simp only [Prod.mk.injEq] at h2
      obtain ⟨_, rfl⟩ := h2
      exact (evalE_eff hc _ _ _ _ hi h1).toB
    · cases h2
  | .push x e, s, fl, s', _, hx, _, hi, h => by
    simp only [exec, bind_ok_iff] at h
    obtain ⟨v, s1, h1, h2⟩ := h
    have e1 := evalE_eff hc e _ _ _ hi h1
    exact (EffE.toB e1).trans (doPush_eff e1.funs (hx x (by simp [writesS])) h2).1

theorem execs_eff (hc : CallsEff G I) (n : Nat) : ∀ (ss : List Stmt) (s : State) (fl : Flow)
    (s' : State), (s.env.saves ≠ [] ∨ s.env.frames ≠ []) → (∀ x ∈ writesSs ss, X x) →
    (∀ x ∈ funWritesSs ss, G x) → FunInv G s → execs I n ss s = (.ok fl, s') → EffS G X s s'
  | [], s, fl, s', _, _, _, hi, h => by
    simp only [execs, Prod.mk.injEq] at h
    obtain ⟨_, rfl⟩ := h
    exact (EffB.refl hi).toS
  | st :: ss, s, fl, s', hctx, hx, hg, hi, h => by
    simp only [execs, bind_ok_iff] at h
    obtain ⟨f1, s1, h1, h2⟩ := h
    have e1 : EffS G X s s1 := by
      cases hlet : isLet st with
      | false =>
        exact (exec_eff hc n st s f1 s1 hlet (fun x h' => hx x (by simp [writesSs, h']))
          (fun x h' => hg x (by simp [funWritesSs, h'])) hi h1).toS
      | true =>
        cases st <;> simp [isLet] at hlet
        simp only [exec, bind_ok_iff, doDefine, Prod.mk.injEq] at h1
        obtain ⟨v, s2, h3, _, rfl⟩ := h1
        have e2 := evalE_eff hc _ _ _ _ hi h3
        refine (EffB.toS (EffE.toB e2)).trans (define_effS e2.funs ?_ _ _)
        rw [e2.saves, e2.frames]; exact hctx
    cases f1 with
    | cont =>
      refine e1.trans (execs_eff hc n ss s1 fl s' ?_ (fun x h' => hx x (by simp [writesSs, h']))
          (fun x h' => hg x (by simp [funWritesSs, h'])) e1.funs h2)
      rcases hctx with h | h
      · exact .inl (e1.saves_ne h)
      · exact .inr (by rw [e1.frames]; exact h)
    | brk =>
      simp only [Prod.mk.injEq] at h2
      obtain ⟨_, rfl⟩ := h2
      exact e1
    | ret w =>
      simp only [Prod.mk.injEq] at h2
      obtain ⟨_, rfl⟩ := h2
      exact e1
end

/-- A call leaves the caller's frame alone, whatever it does inside its own. -/
theorem inFrame_eff {α : Type} {setup : Env → Env} {f : State → Res α}
    (hsetup : ∀ e : Env, (setup e.pushFrame).frames = (e.locals, e.saves) :: e.frames ∧
      (setup e.pushFrame).globals = e.globals ∧ (setup e.pushFrame).mainBlock = e.mainBlock)
    (hf : ∀ s a s', FunInv G s → s.env.frames ≠ [] → f s = (.ok a, s') →
      s'.env.frames = s.env.frames ∧ s'.env.mainBlock = s.env.mainBlock ∧
        Pres G s.env.globals s'.env.globals ∧ FunInv G s')
    {s s' : State} {a : α} (hi : FunInv G s) (h : inFrame setup f s = (.ok a, s')) :
    EffE G s s' := by
  simp only [inFrame, bind_ok_iff, Prod.mk.injEq] at h
  obtain ⟨b, s1, h1, _, rfl⟩ := h
  obtain ⟨g1, g2, g3⟩ := hsetup s.env
  obtain ⟨k1, k2, k3, k4⟩ := hf (s.withEnv fun e => setup e.pushFrame) _ _ hi
    (by show (setup s.env.pushFrame).frames ≠ []; rw [g1]; simp) h1
  have k1' : s1.env.frames = (s.env.locals, s.env.saves) :: s.env.frames := k1.trans g1
  have hp : s1.env.popFrame = { s1.env with frames := s.env.frames, locals := s.env.locals, saves := s.env.saves } := by
    unfold Env.popFrame; rw [k1']
  refine ⟨?_, ?_, ?_, ?_, ?_, k4⟩
  · show s1.env.popFrame.frames = _; rw [hp]
  · show s1.env.popFrame.saves = _; rw [hp]
  · show s1.env.popFrame.locals = _; rw [hp]
  · show s1.env.popFrame.mainBlock = _; rw [hp]; exact k2.trans g3
  · show Pres G _ s1.env.popFrame.globals
    rw [hp]
    have : (setup s.env.pushFrame).globals = s.env.globals := g2
    rw [← this]; exact k3

/-- Calls only change globals assigned by functions. -/
theorem callsEff_inst {P : Prims} {ap : BinOp → Value → Value → Except Err Value}
    {rd : Sym → Value → Bool} : ∀ n, CallsEff G (inst P ap rd n)
  | 0 => by intro t vs s v s' _ _ h; cases h
  | n + 1 => by
    have ih := callsEff_inst (P := P) (ap := ap) (rd := rd) n
    intro t vs s v s' hi ht h
    cases t with
    | fn fd =>
      have h : invokeFun (inst P ap rd n) n fd vs s = (.ok v, s') := h
      unfold invokeFun at h
      refine inFrame_eff ?_ ?_ hi h
      · intro e
        have := bindParams_frames fd.params vs e.pushFrame (by simp [Env.pushFrame])
        rw [this.1, this.2.1, this.2.2]
        exact ⟨rfl, rfl, rfl⟩
      · intro s a s' hi hfr h
        simp only [bind_ok_iff, Prod.mk.injEq] at h
        obtain ⟨fl, s1, h1, _, rfl⟩ := h
        have e1 := execs_eff (X := fun x => x ∈ writesSs fd.body) ih n fd.body s fl s1 (.inr hfr)
          (fun x hx => hx) (fun x hx => ht x ((allWritesSs_split _ x).2 (.inr hx))) hi h1
        refine ⟨e1.frames, e1.main hfr, e1.globals.mono ?_, e1.funs⟩
        rintro x (hx | hx)
        · exact hx
        · exact ht x ((allWritesSs_split _ x).2 (.inl hx))
    | clo i =>
      have h : invokeClo (inst P ap rd n) i vs s = (.ok v, s') := h
      unfold invokeClo at h
      split at h
      · cases h
      · split at h
        · refine inFrame_eff ?_ ?_ hi h
          · intro e
            rename_i c _ _
            have := bindParams_frames c.params vs (bindCaptured c.captured e.pushFrame)
              (by simp [bindCaptured, Env.pushFrame])
            rw [this.1, this.2.1, this.2.2]
            exact ⟨rfl, rfl, rfl⟩
          · intro s a s' hi hfr h
            have e1 := evalE_eff ih _ _ _ _ hi h
            exact ⟨e1.frames, e1.main, e1.globals, e1.funs⟩
        · cases h

end

end Verif.Lang.Gvn
