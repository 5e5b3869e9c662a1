import Verif.Lang.Ctfe
import Verif.Lang.FixedFuns

/-! # Evaluating calls at compile time: what the evaluator finds, a run finds -/
namespace Verif.Lang.Ctfe
open Fixed CallSpec

/-- A run step ends with the value and in the state given, or runs out of fuel. -/
def Ends {α : Type} (r : Res α) (a : α) (s : State) : Prop := r = (.ok a, s) ∨ r.1 = .error .fuel

theorem Ends.bind {α β : Type} {r : Res α} {a : α} {s : State} {k : α → State → Res β} {b : β}
    {t : State} (h : Ends r a s) (hk : Ends (k a s) b t) : Ends (r.bind k) b t := by
  rcases h with rfl | h
  · exact hk
  · right
    rcases r with ⟨r, s'⟩
    simp only at h
    subst h
    rfl

theorem Ends.ok {α : Type} {a : α} {s : State} : Ends ((.ok a, s) : Res α) a s := .inl rfl

theorem checked_val {n : Int} {l : Lit} (h : checked n = some l) : l = .num n := by
  unfold checked at h
  split at h
  · simpa using h.symm
  · cases h

/-- The operators of the evaluator are those of the interpreter. -/
theorem binop_apply {P : Prims} {op : BinOp} {a b l : Lit} (h : binop op a b = some l) :
    applyOp P op (litVal a) (litVal b) = .ok (litVal l) := by
  unfold binop at h
  split at h
  · rw [checked_val h]; rfl
  · rw [checked_val h]; rfl
  · rw [checked_val h]; rfl
  · rename_i x y
    split at h
    · rename_i hy
      rw [checked_val h]
      simp [applyOp, divVals, litVal, hy]
    · cases h
  · rename_i x y
    split at h
    · rename_i hy
      split at h
      · cases h
      · cases h
        simp [applyOp, modVals, litVal, hy]
    · cases h
  all_goals first
    | (cases h; done)
    | (cases h; rfl)
    | (cases h
       simp only [applyOp, cmpVals, litVal, relOf, valEq, truthy, disp, addVals]
       congr 2
       simp only [Int.compare_eq_ite_lt, compare, compareOfLessAndEq]
       grind)

variable {P : Prims} {F : Sym → Option Fun}

/-- The calls the evaluator makes agree with those of a run. -/
def CallOk (P : Prims) (F : Sym → Option Fun) (call : Calls) : Prop :=
  ∀ f vs k l k', call f vs k = some (l, k') → ∃ fd, F f = some fd ∧ P.builtin f = none ∧
    vs.length = fd.params.length ∧
    ∀ n s, s.funs = F → Ends ((plain P n).invoke (.fn fd) (vs.map litVal) s) (litVal l) s

/-- The variables of the evaluator agree with those of the frame: names in scope hold the same, and
names the function does not declare are unknown to the evaluator. -/
structure Agree (own vis : List Sym) (L : Locals) (s : State) : Prop where
  frame : s.env.frames.isEmpty = false
  vis : ∀ x ∈ vis, ∃ l, L x = some l ∧ s.env.locals x = some (litVal l)
  other : ∀ x, x ∉ own → L x = none

mutual
theorem evalE_ends {deep : Bool} {call : Calls} (hc : CallOk P F call) {own vis : List Sym}
    {L : Locals} {s : State} (hs : s.funs = F) (ha : Agree own vis L s) (n : Nat) :
    ∀ (e : Expr) {k : Nat} {l : Lit} {k' : Nat}, inScopeE own vis e →
      evalE deep call L e k = some (l, k') → Ends (Lang.evalE (plain P n) e s) (litVal l) s
  | .lit l, k, l', k', _, h => by
    simp only [evalE] at h
    split at h
    · cases h
    · cases h
      simp only [Lang.evalE]
      exact .ok
  | .var x, k, l, k', hx, h => by
    simp only [evalE] at h
    split at h
    · cases h
    · simp only [Option.map_eq_some_iff, Prod.mk.injEq] at h
      obtain ⟨l', h1, rfl, _⟩ := h
      rcases hx x (by simp [reads]) with hv | hv
      · obtain ⟨l'', g1, g2⟩ := ha.vis x hv
        rw [h1] at g1
        cases g1
        simp only [Lang.evalE, evVar, Env.lookup, ha.frame, g2]
        exact .ok
      · rw [ha.other x hv] at h1
        cases h1
  | .bin op a b, k, l, k', hx, h => by
    simp only [evalE] at h
    split at h
    · cases h
    · simp only [Option.bind_eq_some_iff, Option.map_eq_some_iff, Prod.mk.injEq] at h
      obtain ⟨p, h1, q, h2, l', h3, rfl, _⟩ := h
      have ia := evalE_ends hc hs ha n a (fun x hx' => hx x (by simp [reads, hx'])) h1
      have ib := evalE_ends hc hs ha n b (fun x hx' => hx x (by simp [reads, hx'])) h2
      simp only [Lang.evalE]
      unfold evBin
      have hP : (plain P n).P = P := rfl
      split
      · refine ia.bind ?_
        obtain ⟨pl, pk⟩ := p
        obtain ⟨ql, qk⟩ := q
        cases pl <;> cases ql <;> simp [binop] at h3
        subst h3
        rename_i x y _
        cases x
        · simp only [litVal, truthy, Bool.false_and, Bool.false_eq_true, if_false]; exact .ok
        · simp only [litVal, truthy, Bool.true_and, if_true]
          unfold boolOut
          exact Ends.bind ib (.inl rfl)
      · refine ia.bind ?_
        obtain ⟨pl, pk⟩ := p
        obtain ⟨ql, qk⟩ := q
        cases pl <;> cases ql <;> simp [binop] at h3
        subst h3
        rename_i x y _
        cases x
        · simp only [litVal, truthy, Bool.false_or, Bool.false_eq_true, if_false]
          unfold boolOut
          exact Ends.bind ib (.inl rfl)
        · simp only [litVal, truthy, Bool.true_or, if_true]; exact .ok
      · refine ia.bind (ib.bind ?_)
        have : (plain P n).ap op (litVal p.1) (litVal q.1) = .ok (litVal l') := binop_apply h3
        rw [this]
        exact .ok
  | .not a, k, l, k', hx, h => by
    simp only [evalE] at h
    split at h
    · cases h
    · simp only [Option.bind_eq_some_iff] at h
      obtain ⟨p, h1, h2⟩ := h
      have ia := evalE_ends hc hs ha n a (fun x hx' => hx x (by simpa [reads] using hx')) h1
      simp only [Lang.evalE]
      refine ia.bind ?_
      split at h2
      · rename_i b hb
        cases h2
        rw [hb]
        simp only [litVal, truthy]
        exact .ok
      · cases h2
  | .call f args, k, l, k', hx, h => by
    simp only [evalE] at h
    split at h
    · cases h
    · simp only [Option.bind_eq_some_iff] at h
      obtain ⟨p, h1, h2⟩ := h
      obtain ⟨hl, ia⟩ := evalEs_ends hc hs ha n args (fun x hx' => hx x (by simpa [reads] using hx')) h1
      obtain ⟨fd, hF, hb, hlen, hinv⟩ := hc f p.1 p.2 l k' h2
      have hP : (plain P n).P = P := rfl
      simp only [Lang.evalE, evCall, hP, hb, hs, hF]
      rw [if_pos (by rw [← hlen, hl])]
      exact ia.bind (hinv n s hs)
  | .callv _ _, _, _, _, _, h => by simp [evalE] at h
  | .list _, _, _, _, _, h => by simp [evalE] at h
  | .index _ _, _, _, _, _, h => by simp [evalE] at h
  | .length _, _, _, _, _, h => by simp [evalE] at h
  | .closure _ _, _, _, _, _, h => by simp [evalE] at h

theorem evalEs_ends {deep : Bool} {call : Calls} (hc : CallOk P F call) {own vis : List Sym}
    {L : Locals} {s : State} (hs : s.funs = F) (ha : Agree own vis L s) (n : Nat) :
    ∀ (es : List Expr) {k : Nat} {ls : List Lit} {k' : Nat}, (∀ x ∈ readss es, x ∈ vis ∨ x ∉ own) →
      evalEs deep call L es k = some (ls, k') →
      ls.length = es.length ∧ Ends (Lang.evalEs (plain P n) es s) (ls.map litVal) s
  | [], k, ls, k', _, h => by
    simp only [evalEs, Option.some.injEq, Prod.mk.injEq] at h
    rw [← h.1]
    simp only [Lang.evalEs]
    exact ⟨rfl, .ok⟩
  | e :: es, k, ls, k', hx, h => by
    simp only [evalEs, Option.bind_eq_some_iff, Option.some.injEq, Prod.mk.injEq] at h
    obtain ⟨p, h1, q, h2, h3, _⟩ := h
    have ie := evalE_ends hc hs ha n e (fun x hx' => hx x (by simp [readss, hx'])) h1
    obtain ⟨hl, ies⟩ := evalEs_ends hc hs ha n es (fun x hx' => hx x (by simp [readss, hx'])) h2
    subst h3
    simp only [Lang.evalEs, List.length_cons, hl, true_and]
    exact ie.bind (ies.bind .ok)
end

/-- What running statements inside a function does to the state: the frame's variables change, and
the innermost scope records names that are not in scope outside it. -/
structure Moved (outer : List Sym) (s t : State) : Prop where
  funs : t.funs = s.funs
  clos : t.clos = s.clos
  out : t.out = s.out
  globals : t.env.globals = s.env.globals
  mainBlock : t.env.mainBlock = s.env.mainBlock
  frames : t.env.frames = s.env.frames
  saves : match s.env.saves with
    | [] => t.env.saves = []
    | h :: hs => ∃ h', t.env.saves = (h' ++ h) :: hs ∧ ∀ p ∈ h', p.1 ∉ outer

theorem Moved.refl {outer : List Sym} (s : State) : Moved outer s s := by
  refine ⟨rfl, rfl, rfl, rfl, rfl, rfl, ?_⟩
  cases s.env.saves with
  | nil => rfl
  | cons h hs => exact ⟨[], rfl, by simp⟩

theorem Moved.trans {outer : List Sym} {s t u : State} (h : Moved outer s t) (g : Moved outer t u) :
    Moved outer s u := by
  refine ⟨g.funs.trans h.funs, g.clos.trans h.clos, g.out.trans h.out, g.globals.trans h.globals,
    g.mainBlock.trans h.mainBlock, g.frames.trans h.frames, ?_⟩
  have h1 := h.saves
  have h2 := g.saves
  cases hs : s.env.saves with
  | nil =>
    rw [hs] at h1
    simp only at h1
    rw [h1] at h2
    exact h2
  | cons a as =>
    rw [hs] at h1
    obtain ⟨h', e1, e2⟩ := h1
    rw [e1] at h2
    obtain ⟨h'', e3, e4⟩ := h2
    refine ⟨h'' ++ h', by rw [e3, List.append_assoc], ?_⟩
    intro p hp
    rcases List.mem_append.1 hp with hp | hp
    · exact e4 p hp
    · exact e2 p hp

/-- The flow of a finished statement. -/
def flow : Option Lit → Flow
  | none => .cont
  | some l => .ret (litVal l)

/-- The names in scope after a statement. -/
def visAfter (vis : List Sym) : Stmt → List Sym
  | .letS x _ _ _ => x :: vis
  | _ => vis

theorem scopedSs_cons {own outer vis : List Sym} {s : Stmt} {ss : List Stmt}
    (h : scopedSs own outer vis (s :: ss)) :
    scopedS own outer vis s ∧ scopedSs own outer (visAfter vis s) ss := by
  cases s <;> simpa [scopedSs, visAfter] using h

/-- A step of the evaluator agrees with a step of the run. -/
def StepOk (own outer vis' : List Sym) (s : State) (r : Res Flow) (st : Step) : Prop :=
  r.1 = .error .fuel ∨ ∃ t, r = (.ok (flow st.ret), t) ∧ Moved outer s t ∧
    (st.ret = none → Agree own vis' st.locals t)

/-- Names a block does not touch keep their values when it is left. -/
theorem undo_other {x : Sym} : ∀ (h : List (Sym × Option Value)) (m : VMap),
    (∀ p ∈ h, p.1 ≠ x) → undo m h x = m x
  | [], _, _ => rfl
  | (y, old) :: h, m, hx => by
    have hy : x ≠ y := fun e => hx (y, old) (by simp) e.symm
    simp only [undo]
    rw [undo_other h _ (fun p hp => hx p (by simp [hp]))]
    simp [VMap.put, hy]

/-- Entering and leaving a block. -/
theorem scope_ok {own outer vis vis' : List Sym} {s : State} {f : State → Res Flow}
    {st : Step} {L : Locals} (ha : Agree own vis L s) (hsub : ∀ x ∈ vis, x ∈ vis')
    (h : StepOk own vis vis' (s.withEnv (·.pushScope)) (f (s.withEnv (·.pushScope))) st) :
    StepOk own outer vis s (inScope f s) st := by
  unfold inScope
  rcases h with h | ⟨t, h1, h2, h3⟩
  · left
    rcases hr : f (s.withEnv (·.pushScope)) with ⟨r, t⟩
    rw [hr] at h
    simp only at h
    subst h
    rfl
  · right
    rw [h1]
    simp only [Res.bind]
    have hsv := h2.saves
    simp only [State.withEnv, Env.pushScope] at hsv
    obtain ⟨h', e1, e2⟩ := hsv
    have hfr : t.env.frames.isEmpty = false := by
      rw [h2.frames]
      exact ha.frame
    have hpop : t.env.popScope = { t.env with saves := s.env.saves, locals := undo t.env.locals h' } := by
      unfold Env.popScope
      rw [e1]
      simp [hfr]
    refine ⟨_, rfl, ?_, ?_⟩
    · refine ⟨h2.funs, h2.clos, h2.out, ?_, ?_, ?_, ?_⟩
      · simp only [State.withEnv, hpop]; exact h2.globals
      · simp only [State.withEnv, hpop]; exact h2.mainBlock
      · simp only [State.withEnv, hpop]; exact h2.frames
      · simp only [State.withEnv, hpop]
        cases s.env.saves with
        | nil => rfl
        | cons a as => exact ⟨[], rfl, by simp⟩
    · intro hn
      have h4 := h3 hn
      refine ⟨?_, ?_, h4.other⟩
      · simp only [State.withEnv, hpop]; exact hfr
      · intro x hx
        obtain ⟨l, g1, g2⟩ := h4.vis x (hsub x hx)
        refine ⟨l, g1, ?_⟩
        simp only [State.withEnv, hpop]
        rw [undo_other h' _ (fun p hp he => e2 p hp (he ▸ hx))]
        exact g2

theorem Agree.push {own vis : List Sym} {L : Locals} {s : State} (h : Agree own vis L s) :
    Agree own vis L (s.withEnv (·.pushScope)) := ⟨h.frame, h.vis, h.other⟩

/-- Declaring a name. -/
theorem define_ok {own outer vis : List Sym} {L : Locals} {s : State} (h : Agree own vis L s)
    {x : Sym} (hx : x ∉ outer) (ho : x ∈ own) (l : Lit) :
    Moved outer s (s.withEnv (·.define x (litVal l))) ∧
      Agree own (x :: vis) (L.put x l) (s.withEnv (·.define x (litVal l))) := by
  have hd : s.env.define x (litVal l) = { s.env with
      locals := s.env.locals.put x (some (litVal l)),
      saves := recordSave x (s.env.locals x) s.env.saves } := by
    simp [Env.define, h.frame]
  refine ⟨⟨rfl, rfl, rfl, ?_, ?_, ?_, ?_⟩, ⟨?_, ?_, ?_⟩⟩
  · simp only [State.withEnv, hd]
  · simp only [State.withEnv, hd]
  · simp only [State.withEnv, hd]
  · simp only [State.withEnv, hd]
    cases s.env.saves with
    | nil => rfl
    | cons a as => exact ⟨[(x, s.env.locals x)], rfl, by simpa using hx⟩
  · simp only [State.withEnv, hd]; exact h.frame
  · intro y hy
    simp only [State.withEnv, hd, VMap.put, Locals.put]
    by_cases hyx : y = x
    · exact ⟨l, by simp [hyx], by simp [hyx]⟩
    · simp only [hyx, if_false]
      exact h.vis y (by simpa [hyx] using hy)
  · intro y hy
    have : y ≠ x := fun e => hy (e ▸ ho)
    simp only [Locals.put, this, if_false]
    exact h.other y hy

/-- Assigning a name in scope. -/
theorem assign_ok {own outer vis : List Sym} {L : Locals} {s : State} (h : Agree own vis L s)
    {x : Sym} (hx : x ∈ vis) (hown : ∀ y ∈ vis, y ∈ own) (l : Lit) :
    ∃ t, doAssign x (litVal l) s = (.ok .cont, t) ∧ Moved outer s t ∧
      Agree own vis (L.put x l) t := by
  obtain ⟨l0, _, g2⟩ := h.vis x hx
  have hd : s.env.assign x (litVal l) = some { s.env with
      locals := s.env.locals.put x (some (litVal l)) } := by
    simp [Env.assign, h.frame, g2]
  refine ⟨{ s with env := { s.env with locals := s.env.locals.put x (some (litVal l)) } },
    by unfold doAssign; rw [hd], ?_, ⟨h.frame, ?_, ?_⟩⟩
  · refine ⟨rfl, rfl, rfl, rfl, rfl, rfl, ?_⟩
    simp only
    cases s.env.saves with
    | nil => rfl
    | cons a as => exact ⟨[], rfl, by simp⟩
  · intro y hy
    simp only [VMap.put, Locals.put]
    by_cases hyx : y = x
    · exact ⟨l, by simp [hyx], by simp [hyx]⟩
    · simp only [hyx, if_false]
      exact h.vis y hy
  · intro y hy
    have : y ≠ x := fun e => hy (e ▸ hown x hx)
    simp only [Locals.put, this, if_false]
    exact h.other y hy

/-- After an evaluation that ends. -/
theorem stepOk_bind {own outer vis : List Sym} {s : State} {r : Res Value} {l : Lit}
    {k : Value → State → Res Flow} {st : Step} (h : Ends r (litVal l) s)
    (hk : StepOk own outer vis s (k (litVal l) s) st) : StepOk own outer vis s (r.bind k) st := by
  rcases h with rfl | h
  · exact hk
  · left
    rcases r with ⟨r, s'⟩
    simp only at h
    subst h
    rfl

/-- After a step that ends. -/
theorem stepOk_next {own outer vis vis' : List Sym} {s : State} {r : Res Flow} {st st' : Step}
    {k : Flow → State → Res Flow} (h : StepOk own outer vis s r st)
    (hr : ∀ l t, st.ret = some l → k (.ret (litVal l)) t = (.ok (.ret (litVal l)), t))
    (hst : ∀ l, st.ret = some l → st' = st)
    (hk : ∀ t, st.ret = none → Moved outer s t → Agree own vis st.locals t →
      StepOk own outer vis' t (k .cont t) st') :
    StepOk own outer vis' s (r.bind k) st' := by
  rcases h with h | ⟨t, rfl, h2, h3⟩
  · left
    rcases r with ⟨r, s'⟩
    simp only at h
    subst h
    rfl
  · cases hret : st.ret with
    | some l =>
      right
      rw [hst l hret]
      simp only [flow, Res.bind, hret]
      exact ⟨t, hr l t hret, h2, by simp⟩
    | none =>
      simp only [flow, Res.bind]
      rcases hk t hret h2 (h3 hret) with h4 | ⟨u, h5, h6, h7⟩
      · exact .inl h4
      · exact .inr ⟨u, h5, h2.trans h6, h7⟩

theorem while_ok {own outer vis : List Sym} {c : Expr} {b : List Stmt} {n m : Nat} {deep : Bool}
    {call : Calls} (hc : CallOk P F call) (hsc : inScopeE own vis c)
    (hb : ∀ {L : Locals} {s : State} {k : Nat} {st : Step}, s.funs = F → Agree own vis L s →
      evalSs deep call b L k = some st →
      StepOk own outer vis s (inScope (execs (plain P n) m b) s) st) :
    ∀ (i j : Nat) {L : Locals} {s : State} {k : Nat} {st : Step}, s.funs = F → Agree own vis L s →
      loop (fun L' k' => evalE deep call L' c k') (fun L' k' => evalSs deep call b L' k') j L k =
        some st →
      StepOk own outer vis s
        (whileLoop P (Lang.evalE (plain P n) c) (inScope (execs (plain P n) m b)) i s) st
  | 0, _, _, _, _, _, _, _, _ => .inl rfl
  | i + 1, 0, _, _, _, _, _, _, h => by simp [loop] at h
  | i + 1, j + 1, L, s, k, st, hs, ha, h => by
    simp only [loop, Option.bind_eq_some_iff] at h
    obtain ⟨p, h1, h2⟩ := h
    have hce := evalE_ends hc hs ha n c hsc h1
    show StepOk own outer vis s ((Lang.evalE (plain P n) c s).bind _) st
    refine stepOk_bind hce ?_
    split at h2
    · rename_i hp
      cases h2
      rw [hp]
      simp only [litVal, truthy]
      exact .inr ⟨s, rfl, .refl s, fun _ => ha⟩
    · rename_i hp
      rw [hp]
      simp only [litVal, truthy, if_true]
      simp only [Option.bind_eq_some_iff] at h2
      obtain ⟨r, h3, h4⟩ := h2
      refine stepOk_next (hb hs ha h3) (fun l t _ => rfl) ?_ ?_
      · intro l hl
        rw [hl] at h4
        simp only [Option.some.injEq] at h4
        rw [← h4, ← hl]
      · intro t hn hm hag
        rw [hn] at h4
        exact while_ok hc hsc hb i j (hm.funs.trans hs) hag h4
    · cases h2

theorem visAfter_sub {vis : List Sym} (s : Stmt) : ∀ x ∈ vis, x ∈ visAfter vis s := by
  intro x hx
  cases s <;> simp [visAfter, hx]

mutual
theorem evalS_ok {deep : Bool} {call : Calls} (hc : CallOk P F call) {own : List Sym} (n m : Nat) :
    ∀ (st : Stmt) {outer vis : List Sym} {L : Locals} {s : State} {k : Nat} {r : Step},
      s.funs = F → Agree own vis L s → (∀ x ∈ vis, x ∈ own) → (∀ x ∈ declsS st, x ∈ own) →
      scopedS own outer vis st → evalS deep call st L k = some r →
      StepOk own outer (visAfter vis st) s (exec (plain P n) m st s) r
  | .letS x b mu e, outer, vis, L, s, k, r, hs, ha, hv, hd, hsc, h => by
    simp only [evalS] at h
    split at h
    · cases h
    · simp only [Option.map_eq_some_iff] at h
      obtain ⟨p, h1, rfl⟩ := h
      simp only [scopedS] at hsc
      simp only [exec]
      refine stepOk_bind (evalE_ends hc hs ha n e hsc.1 h1) ?_
      obtain ⟨g1, g2⟩ := define_ok ha hsc.2 (hd x (by simp [declsS])) p.1
      exact .inr ⟨_, rfl, g1, fun _ => g2⟩
  | .set x e, outer, vis, L, s, k, r, hs, ha, hv, hd, hsc, h => by
    simp only [evalS] at h
    split at h
    · cases h
    · simp only [Option.map_eq_some_iff] at h
      obtain ⟨p, h1, rfl⟩ := h
      simp only [scopedS] at hsc
      simp only [exec]
      refine stepOk_bind (evalE_ends hc hs ha n e hsc.1 h1) ?_
      obtain ⟨t, g0, g1, g2⟩ := assign_ok (outer := outer) ha hsc.2 hv p.1
      exact .inr ⟨t, g0, g1, fun _ => g2⟩
  | .ret (some e), outer, vis, L, s, k, r, hs, ha, hv, hd, hsc, h => by
    simp only [evalS] at h
    split at h
    · cases h
    · simp only [Option.map_eq_some_iff] at h
      obtain ⟨p, h1, rfl⟩ := h
      simp only [scopedS] at hsc
      simp only [exec]
      refine stepOk_bind (evalE_ends hc hs ha n e hsc h1) ?_
      exact .inr ⟨s, rfl, .refl s, by simp⟩
  | .ret none, outer, vis, L, s, k, r, hs, ha, hv, hd, hsc, h => by
    simp only [evalS] at h
    split at h
    · cases h
    · cases h
      simp only [exec]
      exact .inr ⟨s, rfl, .refl s, by simp⟩
  | .ifS c t e, outer, vis, L, s, k, r, hs, ha, hv, hd, hsc, h => by
    simp only [evalS] at h
    split at h
    · cases h
    · simp only [Option.bind_eq_some_iff] at h
      obtain ⟨p, h1, h2⟩ := h
      simp only [scopedS] at hsc
      simp only [exec]
      refine stepOk_bind (evalE_ends hc hs ha n c hsc.1 h1) ?_
      split at h2
      · rename_i hp
        rw [hp]
        simp only [litVal, truthy, if_true]
        obtain ⟨vis', hsub, hstep⟩ := evalSs_ok hc n m t (s := s.withEnv (·.pushScope)) hs ha.push hv
          (fun x hx => hd x (by simp [declsS, hx])) hsc.2.1 h2
        exact scope_ok ha hsub hstep
      · rename_i hp
        rw [hp]
        simp only [litVal, truthy]
        obtain ⟨vis', hsub, hstep⟩ := evalSs_ok hc n m e (s := s.withEnv (·.pushScope)) hs ha.push hv
          (fun x hx => hd x (by simp [declsS, hx])) hsc.2.2 h2
        exact scope_ok ha hsub hstep
      · cases h2
  | .whileS c b, outer, vis, L, s, k, r, hs, ha, hv, hd, hsc, h => by
    simp only [evalS] at h
    split at h
    · cases h
    · simp only [scopedS] at hsc
      simp only [exec]
      refine while_ok hc hsc.1 ?_ m maxSteps hs ha h
      intro L' s' k' st' hs' ha' h'
      obtain ⟨vis', hsub, hstep⟩ := evalSs_ok hc n m b (s := s'.withEnv (·.pushScope)) hs' ha'.push hv
        (fun x hx => hd x (by simp [declsS, hx])) hsc.2 h'
      exact scope_ok ha' hsub hstep
  | .callS _ _, _, _, _, _, _, _, _, _, _, _, _, h => by simp [evalS] at h
  | .repeatS _ _ _, _, _, _, _, _, _, _, _, _, _, _, h => by simp [evalS] at h
  | .brk, _, _, _, _, _, _, _, _, _, _, _, h => by simp [evalS] at h
  | .funDef _ _ _, _, _, _, _, _, _, _, _, _, _, _, h => by simp [evalS] at h
  | .showS _, _, _, _, _, _, _, _, _, _, _, _, h => by simp [evalS] at h
  | .assertS _, _, _, _, _, _, _, _, _, _, _, _, h => by simp [evalS] at h
  | .push _ _, _, _, _, _, _, _, _, _, _, _, _, h => by simp [evalS] at h

theorem evalSs_ok {deep : Bool} {call : Calls} (hc : CallOk P F call) {own : List Sym} (n m : Nat) :
    ∀ (ss : List Stmt) {outer vis : List Sym} {L : Locals} {s : State} {k : Nat} {r : Step},
      s.funs = F → Agree own vis L s → (∀ x ∈ vis, x ∈ own) → (∀ x ∈ declsSs ss, x ∈ own) →
      scopedSs own outer vis ss → evalSs deep call ss L k = some r →
      ∃ vis', (∀ x ∈ vis, x ∈ vis') ∧ StepOk own outer vis' s (execs (plain P n) m ss s) r
  | [], outer, vis, L, s, k, r, hs, ha, hv, hd, hsc, h => by
    simp only [evalSs, Option.some.injEq] at h
    subst h
    simp only [execs]
    exact ⟨vis, fun _ h => h, .inr ⟨s, rfl, .refl s, fun _ => ha⟩⟩
  | st :: ss, outer, vis, L, s, k, r, hs, ha, hv, hd, hsc, h => by
    simp only [evalSs, Option.bind_eq_some_iff] at h
    obtain ⟨r1, h1, h2⟩ := h
    obtain ⟨hsc1, hsc2⟩ := scopedSs_cons hsc
    have ih := evalS_ok hc n m st hs ha hv (fun x hx => hd x (by simp [declsSs, hx])) hsc1 h1
    have hv' : ∀ x ∈ visAfter vis st, x ∈ own := by
      intro x hx
      cases st <;> simp only [visAfter] at hx <;> first
        | exact hv x hx
        | (rcases List.mem_cons.1 hx with rfl | hx
           · exact hd x (by simp [declsSs, declsS])
           · exact hv x hx)
    cases hret : r1.ret with
    | some l =>
      rw [hret] at h2
      simp only [Option.some.injEq] at h2
      have hr : r = r1 := by rw [← h2, ← hret]
      refine ⟨visAfter vis st, visAfter_sub st, ?_⟩
      simp only [execs]
      refine stepOk_next ih (fun l t _ => rfl) (fun _ _ => hr) ?_
      intro t hn
      rw [hret] at hn
      cases hn
    | none =>
      rw [hret] at h2
      simp only at h2
      rcases ih with ih | ⟨t, g1, g2, g3⟩
      · refine ⟨vis, fun _ h => h, .inl ?_⟩
        simp only [execs]
        rcases hx : exec (plain P n) m st s with ⟨x, s'⟩
        rw [hx] at ih
        simp only at ih
        subst ih
        rfl
      · obtain ⟨vis', hsub, hstep⟩ := evalSs_ok hc n m ss (g2.funs.trans hs) (g3 hret) hv'
          (fun x hx => hd x (by simp [declsSs, hx])) hsc2 h2
        refine ⟨vis', fun x hx => hsub x (visAfter_sub st x hx), ?_⟩
        simp only [execs, g1, Res.bind, hret, flow]
        rcases hstep with h4 | ⟨u, h5, h6, h7⟩
        · exact .inl h4
        · exact .inr ⟨u, h5, g2.trans h6, h7⟩
end

/-- Binding parameters. -/
theorem bindL_agree : ∀ {ps : List Sym} {vs : List Lit} {L : Locals} {e : Env},
    ps.length = vs.length → e.frames.isEmpty = false → e.saves = [] →
    (∀ x, e.locals x = (L x).map litVal) →
    (∀ x, (bindParams ps (vs.map litVal) e).locals x = (bindL ps vs L x).map litVal) ∧
      (bindParams ps (vs.map litVal) e).saves = [] ∧
      (∀ x, x ∈ ps ∨ (L x).isSome = true → (bindL ps vs L x).isSome = true) ∧
      (∀ x, x ∉ ps → bindL ps vs L x = L x)
  | [], vs, L, e, _, _, hsv, h => by
    simp only [bindParams, bindL]
    exact ⟨h, hsv, by simp, by simp⟩
  | p :: ps, [], L, e, hl, _, _, _ => by simp at hl
  | p :: ps, v :: vs, L, e, hl, hf, hsv, h => by
    simp only [List.map_cons, bindParams, bindL]
    have hd : e.define p (litVal v) = { e with
        locals := e.locals.put p (some (litVal v)), saves := [] } := by
      simp [Env.define, hf, hsv, recordSave]
    obtain ⟨g1, g2, g3, g4⟩ := bindL_agree (L := L.put p v) (e := e.define p (litVal v)) (vs := vs)
      (ps := ps) (by simpa using hl) (by rw [hd]; exact hf) (by rw [hd]) (by
        intro x
        rw [hd]
        simp only [VMap.put, Locals.put]
        by_cases hx : x = p <;> simp [hx, h])
    refine ⟨g1, g2, fun x hx => g3 x ?_, fun x hx => ?_⟩
    · by_cases hxp : x = p
      · right; simp [Locals.put, hxp]
      · rcases hx with hx | hx
        · left; simpa [hxp] using hx
        · right; simpa [Locals.put, hxp] using hx
    · simp only [List.mem_cons, not_or] at hx
      rw [g4 x hx.2]
      simp [Locals.put, hx.1]

/-- The body of a well scoped function. -/
theorem body_ok {deep : Bool} {call : Calls} (hc : CallOk P F call) {fd : Fun} {own : List Sym}
    (hown : own = fd.params ++ declsSs fd.body) (hsc : scopedSs own [] fd.params fd.body)
    {vs : List Lit} (hl : vs.length = fd.params.length) {k : Nat} {l : Lit} {k' : Nat}
    (h : callBody fd deep call vs k = some (l, k')) (n : Nat) {s : State} (hs : s.funs = F) :
    Ends (invokeFun (plain P n) n fd (vs.map litVal) s) (litVal l) s := by
  simp only [callBody, Option.map_eq_some_iff, Prod.mk.injEq] at h
  obtain ⟨r, h1, h2, _⟩ := h
  obtain ⟨g1, g2, g3, g4⟩ := bindL_agree (L := fun _ => none) (e := s.env.pushFrame) hl.symm
    (by simp [Env.pushFrame]) rfl (by simp [Env.pushFrame])
  have hfr := bindParams_frames fd.params (vs.map litVal) s.env.pushFrame (by simp [Env.pushFrame])
  have hag : Agree own fd.params (bindL fd.params vs fun _ => none)
      (s.withEnv fun e => bindParams fd.params (vs.map litVal) e.pushFrame) := by
    refine ⟨?_, ?_, ?_⟩
    · simp only [State.withEnv, hfr.1]; simp [Env.pushFrame]
    · intro x hx
      obtain ⟨l', hl'⟩ := Option.isSome_iff_exists.1 (g3 x (.inl hx))
      exact ⟨l', hl', by simp only [State.withEnv]; rw [g1, hl']; rfl⟩
    · intro x hx
      rw [g4 x]
      intro hp
      exact hx (by rw [hown]; simp [hp])
  obtain ⟨vis', _, hstep⟩ := evalSs_ok (s := s.withEnv fun e => bindParams fd.params (vs.map litVal) e.pushFrame)
    hc n n fd.body hs hag
    (fun x hx => by rw [hown]; simp [hx]) (fun x hx => by rw [hown]; simp [hx]) hsc h1
  unfold invokeFun inFrame
  rcases hstep with hf | ⟨t, e1, hm, _⟩
  · right
    rcases hx : execs (plain P n) n fd.body
      (s.withEnv fun e => bindParams fd.params (vs.map litVal) e.pushFrame) with ⟨x, s'⟩
    rw [hx] at hf
    simp only at hf
    subst hf
    show ((Res.bind (execs (plain P n) n fd.body _) _).bind _).1 = _
    rw [hx]
    rfl
  · left
    show (Res.bind (execs (plain P n) n fd.body _) _).bind _ = _
    rw [e1]
    simp only [Res.bind]
    have hret : returned (flow r.ret) = litVal l := by
      rw [← h2]
      cases r.ret <;> rfl
    rw [hret]
    have hst : t.withEnv (·.popFrame) = s := by
      have e2 := hm.frames
      have e3 := hm.globals
      have e4 := hm.mainBlock
      simp only [State.withEnv, hfr.1, hfr.2.1, hfr.2.2] at e2 e3 e4
      simp only [Env.pushFrame] at e2 e3 e4
      have : t.env.popFrame = s.env := by
        unfold Env.popFrame
        rw [e2]
        simp only
        rw [e3, e4]
      simp only [State.withEnv, this]
      have e5 := hm.funs
      have e6 := hm.clos
      have e7 := hm.out
      simp only [State.withEnv] at e5 e6 e7
      rw [e5, e6, e7]
    rw [hst]

theorem collect_main : ∀ (ss : List Stmt) (m : Sym → Option Fun), plainSs ss = true →
    collect ss m = m
  | [], m, _ => rfl
  | s :: ss, m, h => by
    simp only [plainSs, Bool.and_eq_true] at h
    have ih := collect_main ss m h.2
    cases s with
    | funDef _ _ _ => simp [plainS] at h
    | _ => simpa [collect] using ih

theorem collect_defs {main : List Stmt} (hm : plainSs main = true) :
    ∀ (defs : List Def) (m : Sym → Option Fun) {f : Sym} {fd : Fun},
      collect (program defs main) m f = some fd → m f = some fd ∨
        ∃ d ∈ defs, d.name = f ∧ fd = toFun d
  | [], m, f, fd, h => by
    simp only [program, List.map_nil, List.nil_append, collect_main main m hm] at h
    exact .inl h
  | d :: ds, m, f, fd, h => by
    simp only [program, List.map_cons, List.cons_append, Def.stmt, collect] at h
    rcases collect_defs hm ds _ h with h' | ⟨d', h1, h2⟩
    · split at h'
      · simp only at h'
        split at h'
        · rename_i hf
          cases h'
          exact .inr ⟨d, by simp, hf.symm, rfl⟩
        · exact .inl h'
      · exact .inl h'
    · exact .inr ⟨d', by simp [h1], h2⟩

theorem callN_ok {defs : List Def} {main : List Stmt} (ho : Orderly P defs main)
    (hsc : ∀ d ∈ defs, d.scoped) :
    ∀ d, CallOk P (table defs) (callN (collect (program defs main) fun _ => none) d)
  | 0 => by intro f vs k l k' h; simp [callN] at h
  | i + 1 => by
    intro f vs k l k' h
    simp only [callN] at h
    split at h
    · cases h
    · rename_i fd hfd
      split at h
      · cases h
      · rename_i hlen
        rcases collect_defs ho.main defs _ hfd with h' | ⟨d, hd, rfl, rfl⟩
        · cases h'
        have hlen' : vs.length = (toFun d).params.length := by
          exact Classical.not_not.1 hlen
        refine ⟨toFun d, table_mem ho.distinct hd, ho.own d hd, hlen', ?_⟩
        intro n s hs
        cases n with
        | zero => exact .inr rfl
        | succ n => exact body_ok (fd := toFun d) (callN_ok ho hsc i) rfl (hsc d hd) hlen' h n hs

theorem litsOf_some : ∀ {as : List Expr} {vs : List Lit}, litsOf as = some vs →
    as = vs.map .lit
  | [], vs, h => by simp only [litsOf, Option.some.injEq] at h; rw [← h]; rfl
  | .lit l :: as, vs, h => by
    simp only [litsOf, Option.map_eq_some_iff] at h
    obtain ⟨ws, h1, rfl⟩ := h
    rw [litsOf_some h1]
    rfl
  | .var _ :: _, _, h => by simp [litsOf] at h
  | .bin _ _ _ :: _, _, h => by simp [litsOf] at h
  | .not _ :: _, _, h => by simp [litsOf] at h
  | .call _ _ :: _, _, h => by simp [litsOf] at h
  | .callv _ _ :: _, _, h => by simp [litsOf] at h
  | .list _ :: _, _, h => by simp [litsOf] at h
  | .index _ _ :: _, _, h => by simp [litsOf] at h
  | .length _ :: _, _, h => by simp [litsOf] at h
  | .closure _ _ :: _, _, h => by simp [litsOf] at h

/-- The rule the pass follows. -/
def rule (funcs : Sym → Option Fun) : Rule := fun f as e => tryE funcs (.call f as) = some e

theorem lits_eval {n : Nat} {s : State} : ∀ vs : List Lit,
    Lang.evalEs (plain P n) (vs.map .lit) s = (.ok (vs.map litVal), s)
  | [] => rfl
  | v :: vs => by simp [Lang.evalEs, Lang.evalE, lits_eval vs, Res.bind]

theorem rule_sound {defs : List Def} {main : List Stmt} (ho : Orderly P defs main)
    (hsc : ∀ d ∈ defs, d.scoped) (F' : Sym → Option Fun) :
    RuleSound (· = .fuel) (table defs) F' (rule (collect (program defs main) fun _ => none)) P := by
  intro f as e hq
  simp only [rule, tryE] at hq
  split at hq
  · cases hq
  · rename_i vs hvs
    simp only [Option.map_eq_some_iff] at hq
    obtain ⟨p, h1, rfl⟩ := hq
    have has := litsOf_some hvs
    subst has
    obtain ⟨fd, hF, hb, hlen, hinv⟩ := callN_ok ho hsc _ f vs 0 p.1 p.2 h1
    refine ⟨?_, ?_, fd, hF, hb, by simpa using hlen, ?_⟩
    · rw [List.all_eq_true]
      intro a ha
      obtain ⟨l, _, rfl⟩ := List.mem_map.1 ha
      rfl
    · intro x hx
      obtain ⟨l, _, h⟩ := List.mem_map.1 hx
      cases h
    · intro n s ws hs hev hg
      rw [lits_eval] at hev
      simp only [Prod.mk.injEq, Except.ok.injEq, and_true] at hev
      subst hev
      rcases hinv n s hs with h | h
      · rw [h]
        simp only [Lang.evalE]
        exact same_mk hs
      · exact absurd rfl (hg _ h)

mutual
theorem ctfeE_rel (m : Sym → Option Fun) : ∀ e, RelE (rule m) e (ctfeE m e)
  | .call f args => by
    have ih := ctfeEs_rel m args
    rw [ctfeE]
    split
    · rename_i r hr
      exact .rule (RelEs.refl args) hr
    · simp only
      cases ht : tryE m (.call f (ctfeEs m args)) with
      | some r => exact .rule ih ht
      | none => exact .call f ih
  | .bin op a b => by
    rw [ctfeE]
    simp only [tryE]
    exact .bin op (ctfeE_rel m a) (ctfeE_rel m b)
  | .not a => by rw [ctfeE]; simp only [tryE]; exact .not (ctfeE_rel m a)
  | .lit l => by simp only [ctfeE, tryE]; exact .lit l
  | .var x => by simp only [ctfeE, tryE]; exact .var x
  | .index c i => by simp only [ctfeE, tryE]; exact RelE.refl _
  | .length c => by simp only [ctfeE, tryE]; exact RelE.refl _
  | .callv c as => by simp only [ctfeE, tryE]; exact RelE.refl _
  | .list as => by simp only [ctfeE, tryE]; exact RelE.refl _
  | .closure ps b => by simp only [ctfeE, tryE]; exact RelE.refl _

theorem ctfeEs_rel (m : Sym → Option Fun) : ∀ es, RelEs (rule m) es (ctfeEs m es)
  | [] => by rw [ctfeEs]; exact .nil
  | e :: es => by rw [ctfeEs]; exact .cons (ctfeE_rel m e) (ctfeEs_rel m es)
end

mutual
theorem relS_refl {Q : Rule} : ∀ s, plainS s = true → RelS Q s s
  | .letS x b m e, _ => .letS x b m (RelE.refl e)
  | .set x e, _ => .set x (RelE.refl e)
  | .callS f as, _ => .callS f (RelEs.refl as)
  | .ifS c t e, h => by
    simp only [plainS, Bool.and_eq_true] at h
    exact .ifS (RelE.refl c) (relSs_refl t h.1) (relSs_refl e h.2)
  | .whileS c b, h => by
    simp only [plainS] at h
    exact .whileS (RelE.refl c) (relSs_refl b h)
  | .repeatS x e b, h => by
    simp only [plainS] at h
    exact .repeatS x (RelE.refl e) (relSs_refl b h)
  | .ret none, _ => .retN
  | .ret (some e), _ => .ret (RelE.refl e)
  | .brk, _ => .brk
  | .funDef _ _ _, h => by simp [plainS] at h
  | .showS e, _ => .showS (RelE.refl e)
  | .assertS e, _ => .assertS (RelE.refl e)
  | .push x e, _ => .push x (RelE.refl e)

theorem relSs_refl {Q : Rule} : ∀ ss, plainSs ss = true → RelSs Q ss ss
  | [], _ => .nil
  | s :: ss, h => by
    simp only [plainSs, Bool.and_eq_true] at h
    exact .cons (relS_refl s h.1) (relSs_refl ss h.2)
end

mutual
theorem ctfeS_rel (m : Sym → Option Fun) : ∀ s, plainS s = true → RelS (rule m) s (ctfeS m s)
  | .letS x b mu e, _ => by simp only [ctfeS]; exact .letS x b mu (ctfeE_rel m e)
  | .set x e, _ => by simp only [ctfeS]; exact .set x (ctfeE_rel m e)
  | .callS f as, _ => by simp only [ctfeS]; exact .callS f (ctfeEs_rel m as)
  | .ifS c t e, h => by
    simp only [plainS, Bool.and_eq_true] at h
    simp only [ctfeS]
    exact .ifS (ctfeE_rel m c) (ctfeSs_rel m t h.1) (ctfeSs_rel m e h.2)
  | .whileS c b, h => by
    simp only [plainS] at h
    simp only [ctfeS]
    exact .whileS (ctfeE_rel m c) (ctfeSs_rel m b h)
  | .repeatS x e b, h => by simp only [ctfeS]; exact relS_refl _ h
  | .ret none, _ => by simp only [ctfeS]; exact .retN
  | .ret (some e), _ => by simp only [ctfeS]; exact .ret (ctfeE_rel m e)
  | .brk, _ => by simp only [ctfeS]; exact .brk
  | .funDef _ _ _, h => by simp [plainS] at h
  | .showS e, _ => by simp only [ctfeS]; exact .showS (ctfeE_rel m e)
  | .assertS e, _ => by simp only [ctfeS]; exact .assertS (ctfeE_rel m e)
  | .push x e, _ => by simp only [ctfeS]; exact .push x (ctfeE_rel m e)

theorem ctfeSs_rel (m : Sym → Option Fun) : ∀ ss, plainSs ss = true → RelSs (rule m) ss (ctfeSs m ss)
  | [], _ => by rw [ctfeSs]; exact .nil
  | s :: ss, h => by
    simp only [plainSs, Bool.and_eq_true] at h
    rw [ctfeSs]
    exact .cons (ctfeS_rel m s h.1) (ctfeSs_rel m ss h.2)
end

/-- Evaluating calls in a program whose functions come first and are well scoped. -/
theorem ctfe_run {defs : List Def} {main : List Stmt} (ho : Orderly P defs main)
    (hsc : ∀ d ∈ defs, d.scoped) (n : Nat)
    (hf : (run P n (program defs main)).error ≠ some .fuel) :
    run P n (ctfeProgram (program defs main)) = run P n (program defs main) := by
  have hsplit : ∀ (m : Sym → Option Fun) (defs : List Def), ctfeSs m (program defs main) =
      program (defs.map (mapBody (ctfeSs m))) (ctfeSs m main) := by
    intro m defs
    induction defs with
    | nil => rfl
    | cons d ds ih =>
      simp only [program, List.map_cons, List.cons_append, ctfeSs] at ih ⊢
      rw [ih]
      rfl
  unfold ctfeProgram
  rw [hsplit]
  exact run_same (bad := (· = .fuel)) ho.distinct (fun d hd => ctfeSs_rel _ _ (ho.flat d hd))
    (ctfeSs_rel _ _ ho.main) (rule_sound ho hsc _) n (fun e he h => hf (h ▸ he))

end Verif.Lang.Ctfe
